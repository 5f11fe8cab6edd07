import Verif.ObjectId.AllocLemmas

/-! The allocators of the model follow the abstract machine of `AllocLemmas`. -/

namespace Verif.ObjectId

/-- The id made of a token. -/
def encode (epoch : BitVec 64) (k : Token) : ObjectId where
  allocatorId := (allocatorId epoch).setWidth 52 +
    (splitThreadId (BitVec.ofNat 64 k.tid) (idBits k.cls)).1.setWidth 52
  offsetBits := BitVec.ofNat 6 k.cls
  metadata := 0
  id := (BitVec.ofNat 64 k.count <<< k.cls) |||
    (splitThreadId (BitVec.ofNat 64 k.tid) (idBits k.cls)).2

/-- What a thread's variables say about single objects. -/
def SimSingle (th : Thread) : Option (Nat × Nat) → Prop
  | none => th.singleThreadId = none ∧ th.singleAllocationId = 0
  | some (tid, n) =>
    th.singleThreadId = some (splitThreadId (BitVec.ofNat 64 tid) kIdBitCount) ∧
      th.singleAllocationId = BitVec.ofNat 64 n ∧ n < 2 ^ kIdBitCount

/-- What a thread's variables say about allocations with `b` offset bits. -/
def SimMany (th : Thread) (b : Nat) : Option (Nat × Nat) → Prop
  | none => th.allocationIdPerOffset b = 0
  | some (tid, n) =>
    th.threadIdPerOffset b = splitThreadId (BitVec.ofNat 64 tid) (idBits b) ∧
      th.allocationIdPerOffset b = BitVec.ofNat 64 n ∧ 0 < n ∧ n < 2 ^ countBits b

/-- The model state corresponds to the abstract state. -/
structure Sim (p : Process) (s : Abs) : Prop where
  global : p.globalThreadId = BitVec.ofNat 64 (s.next 0)
  globalMany : ∀ b, 1 ≤ b → b ≤ 40 → p.globalThreadIdPerOffset b = BitVec.ofNat 64 (s.next b)
  single : ∀ t, SimSingle (p.threads t) (s.own t 0)
  many : ∀ t b, 1 ≤ b → b ≤ 40 → SimMany (p.threads t) b (s.own t b)

theorem sim_init (e : BitVec 64) : Sim { epoch := e } ⟨fun _ => 0, fun _ _ => none⟩ := by
  constructor
  · rfl
  · intros; rfl
  · intros; exact ⟨rfl, rfl⟩
  · intros; rfl

theorem ofNat_succ (n : Nat) : BitVec.ofNat 64 n + 1 = BitVec.ofNat 64 (n + 1) := by
  apply BitVec.eq_of_toNat_eq
  simp [BitVec.toNat_add, BitVec.toNat_ofNat]

theorem single_wrap (n : Nat) (hn : n < 2 ^ kIdBitCount) :
    (BitVec.ofNat 64 n + 1 = 1#64 <<< kIdBitCount) ↔ n + 1 = 2 ^ countBits 0 := by
  have e : (1#64 <<< kIdBitCount).toNat = 2 ^ 24 := by decide
  have hc : countBits 0 = 24 := rfl
  have hk : kIdBitCount = 24 := rfl
  rw [hk] at hn
  rw [ofNat_succ, ← BitVec.toNat_inj, e, hc, BitVec.toNat_ofNat, Nat.mod_eq_of_lt (by omega)]

theorem encode_single (epoch : BitVec 64) (tid n : Nat) :
    ({ allocatorId := (allocatorId epoch +
          (splitThreadId (BitVec.ofNat 64 tid) kIdBitCount).1).setWidth 52,
       offsetBits := 0, metadata := 0,
       id := BitVec.ofNat 64 n ||| (splitThreadId (BitVec.ofNat 64 tid) kIdBitCount).2 } :
      ObjectId) = encode epoch ⟨0, tid, n⟩ := by
  unfold encode
  have h1 : idBits 0 = kIdBitCount := rfl
  simp only [h1]
  rw [BitVec.setWidth_add _ _ (by omega)]
  simp

theorem allocateSingle_sim {p : Process} {s : Abs} (h : Sim p s) (t : Nat) :
    (allocateSingleObject p t).2 = encode p.epoch (astep s t 0).2 ∧
      Sim (allocateSingleObject p t).1 (astep s t 0).1 ∧
      (allocateSingleObject p t).1.epoch = p.epoch := by
  have hs := h.single t
  have key : ∀ tid count n : Nat, count < 2 ^ kIdBitCount →
      (p.threads t).singleAllocationId = BitVec.ofNat 64 count →
      initThreadId (p.threads t) p.globalThreadId =
        (splitThreadId (BitVec.ofNat 64 tid) kIdBitCount, BitVec.ofNat 64 n) →
      ((s.own t 0 = none ∧ tid = s.next 0 ∧ count = 0 ∧ n = s.next 0 + 1) ∨
        (s.own t 0 = some (tid, count) ∧ n = s.next 0)) →
      (allocateSingleObject p t).2 = encode p.epoch (astep s t 0).2 ∧
      Sim (allocateSingleObject p t).1 (astep s t 0).1 ∧
      (allocateSingleObject p t).1.epoch = p.epoch := by
    intro tid count n hlt hcount hpair hcase
    rw [astep_spec s t 0 tid count n hcase]
    unfold allocateSingleObject
    simp only
    rw [hpair]
    simp only
    by_cases hw : count + 1 = 2 ^ countBits 0
    · have hw' := (single_wrap count hlt).2 hw
      rw [hcount, if_pos hw', if_pos hw, if_pos trivial]
      refine ⟨encode_single _ _ _, ?_, rfl⟩
      constructor
      · show _ = BitVec.ofNat 64 (if (0:Nat) = 0 then n + 1 else s.next 0)
        rw [if_pos rfl, ← ofNat_succ]
        rfl
      · intro b hb1 hb2
        show p.globalThreadIdPerOffset b = BitVec.ofNat 64 (if b = 0 then n + 1 else s.next b)
        rw [if_neg (by omega)]
        exact h.globalMany b hb1 hb2
      · intro u
        show SimSingle (if u = t then _ else p.threads u)
          (if u = t ∧ (0:Nat) = 0 then some (n, 0) else s.own u 0)
        by_cases hu : u = t
        · rw [if_pos hu, if_pos ⟨hu, rfl⟩]
          exact ⟨rfl, rfl, Nat.two_pow_pos _⟩
        · rw [if_neg hu, if_neg (fun x => hu x.1)]
          exact h.single u
      · intro u b hb1 hb2
        show SimMany (if u = t then _ else p.threads u) b
          (if u = t ∧ b = 0 then some (n, 0) else s.own u b)
        rw [if_neg (show ¬ (u = t ∧ b = 0) from fun x => by omega)]
        have := h.many u b hb1 hb2
        by_cases hu : u = t
        · rw [if_pos hu]
          subst hu
          cases ho : s.own u b with
          | none => rw [ho] at this; exact this
          | some x => rw [ho] at this; exact this
        · rw [if_neg hu]
          exact this
    · have hw' := fun x => hw ((single_wrap count hlt).1 x)
      rw [hcount, if_neg hw', if_neg hw]
      refine ⟨encode_single _ _ _, ?_, rfl⟩
      constructor
      · show _ = BitVec.ofNat 64 (if (0:Nat) = 0 then n else s.next 0)
        rw [if_pos rfl]
        rfl
      · intro b hb1 hb2
        show p.globalThreadIdPerOffset b = BitVec.ofNat 64 (if b = 0 then n else s.next b)
        rw [if_neg (by omega)]
        exact h.globalMany b hb1 hb2
      · intro u
        show SimSingle (if u = t then _ else p.threads u)
          (if u = t ∧ (0:Nat) = 0 then some (tid, count + 1) else s.own u 0)
        by_cases hu : u = t
        · rw [if_pos hu, if_pos ⟨hu, rfl⟩]
          refine ⟨rfl, ofNat_succ count, ?_⟩
          have : countBits 0 = kIdBitCount := rfl
          rw [this] at hw
          omega
        · rw [if_neg hu, if_neg (fun x => hu x.1)]
          exact h.single u
      · intro u b hb1 hb2
        show SimMany (if u = t then _ else p.threads u) b
          (if u = t ∧ b = 0 then some (tid, count + 1) else s.own u b)
        rw [if_neg (show ¬ (u = t ∧ b = 0) from fun x => by omega)]
        have := h.many u b hb1 hb2
        by_cases hu : u = t
        · rw [if_pos hu]
          subst hu
          cases ho : s.own u b with
          | none => rw [ho] at this; exact this
          | some x => rw [ho] at this; exact this
        · rw [if_neg hu]
          exact this
  cases ho : s.own t 0 with
  | none =>
    rw [ho] at hs
    obtain ⟨h1, h2⟩ := hs
    refine key (s.next 0) 0 (s.next 0 + 1) (Nat.two_pow_pos _) h2 ?_ (Or.inl ⟨ho, rfl, rfl, rfl⟩)
    unfold initThreadId
    rw [h1]
    simp only
    rw [h.global, ofNat_succ]
  | some x =>
    obtain ⟨tid, count⟩ := x
    rw [ho] at hs
    obtain ⟨h1, h2, h3⟩ := hs
    refine key tid count (s.next 0) h3 h2 ?_ (Or.inr ⟨ho, rfl⟩)
    unfold initThreadId
    rw [h1]
    simp only
    rw [h.global]

theorem many_next (n b : Nat) (hb : b ≤ 40) (hb1 : 1 ≤ b) (hn : n < 2 ^ countBits b) :
    ((BitVec.ofNat 64 n + 1) &&& ((1#64 <<< localAllocationBitCount b) - 1#64)) =
      BitVec.ofNat 64 (if n + 1 = 2 ^ countBits b then 0 else n + 1) := by
  have hc : localAllocationBitCount b = countBits b := by
    unfold countBits
    rw [if_neg (by omega)]
  have hL : countBits b ≤ 16 := by
    unfold countBits localAllocationBitCount
    rw [if_neg (by omega)]
    omega
  rw [hc]
  have hpow : 2 ^ countBits b ≤ 2 ^ 16 := Nat.pow_le_pow_right (by omega) hL
  have hpos : 0 < 2 ^ countBits b := Nat.two_pow_pos _
  have hm : ((1#64 <<< countBits b) - 1#64).toNat = 2 ^ countBits b - 1 := by
    rw [BitVec.toNat_sub, BitVec.toNat_shiftLeft, Nat.shiftLeft_eq]
    have : (1#64).toNat = 1 := rfl
    rw [this, Nat.one_mul, Nat.mod_eq_of_lt (a := 2 ^ countBits b) (by omega)]
    omega
  apply BitVec.eq_of_toNat_eq
  rw [BitVec.toNat_and, hm, Nat.and_two_pow_sub_one_eq_mod, ofNat_succ, BitVec.toNat_ofNat,
    Nat.mod_eq_of_lt (a := n + 1) (by omega)]
  split
  · next e =>
    rw [e, Nat.mod_self]
    rfl
  · rw [Nat.mod_eq_of_lt (by omega), BitVec.toNat_ofNat, Nat.mod_eq_of_lt (by omega)]

/-- The last part of `Allocate`. -/
theorem allocate_many_eq (p : Process) (t : Nat) (size : BitVec 64) (h : ¬ size.toNat ≤ 1)
    (hb : (offsetBitsFor size).toNat ≤ 40) (tid : BitVec 64 × BitVec 64) (global : BitVec 64)
    (hpair : initThreadIdPerOffset (p.threads t) (offsetBitsFor size).toNat
      (p.globalThreadIdPerOffset (offsetBitsFor size).toNat) = (tid, global)) :
    allocate p t size =
      some (({ p with globalThreadIdPerOffset := fun c =>
          if c = (offsetBitsFor size).toNat then global
          else p.globalThreadIdPerOffset c } : Process).setThread t
          { p.threads t with
            threadIdPerOffset := fun c => if c = (offsetBitsFor size).toNat then tid
              else (p.threads t).threadIdPerOffset c,
            allocationIdPerOffset := fun c => if c = (offsetBitsFor size).toNat then
              ((p.threads t).allocationIdPerOffset (offsetBitsFor size).toNat + 1) &&&
                ((1#64 <<< localAllocationBitCount (offsetBitsFor size).toNat) - 1#64)
              else (p.threads t).allocationIdPerOffset c },
        AllocationId.ofObject
          { allocatorId := ((allocatorId p.epoch).setWidth 52) + tid.1.setWidth 52,
            offsetBits := offsetBitsFor size, metadata := 0,
            id := ((p.threads t).allocationIdPerOffset (offsetBitsFor size).toNat <<<
              (offsetBitsFor size).toNat) ||| tid.2 }) := by
  unfold allocate
  rw [if_neg h]
  simp only
  rw [if_pos (show (offsetBitsFor size).toNat ≤ kMaxOffsetBits from hb), hpair]

theorem allocateMany_sim {p : Process} {s : Abs} (h : Sim p s) (t : Nat) (size : BitVec 64)
    (hsize : ¬ size.toNat ≤ 1) (hb1 : 1 ≤ (offsetBitsFor size).toNat)
    (hb : (offsetBitsFor size).toNat ≤ 40) :
    ∃ p', allocate p t size = some (p',
        AllocationId.ofObject (encode p.epoch (astep s t (offsetBitsFor size).toNat).2)) ∧
      Sim p' (astep s t (offsetBitsFor size).toNat).1 ∧ p'.epoch = p.epoch := by
  generalize hbe : (offsetBitsFor size).toNat = b at hb1 hb ⊢
  have hs := h.many t b hb1 hb
  have hidb : localAllocationBitCount b + b = idBits b := by
    unfold idBits countBits
    rw [if_neg (by omega)]
  have hob : offsetBitsFor size = BitVec.ofNat 6 b := by
    apply BitVec.eq_of_toNat_eq
    rw [hbe, BitVec.toNat_ofNat, Nat.mod_eq_of_lt (by omega)]
  have key : ∀ tid count n : Nat, count < 2 ^ countBits b →
      (p.threads t).allocationIdPerOffset b = BitVec.ofNat 64 count →
      initThreadIdPerOffset (p.threads t) b (p.globalThreadIdPerOffset b) =
        (splitThreadId (BitVec.ofNat 64 tid) (idBits b), BitVec.ofNat 64 n) →
      ((s.own t b = none ∧ tid = s.next b ∧ count = 0 ∧ n = s.next b + 1) ∨
        (s.own t b = some (tid, count) ∧ n = s.next b)) →
      ∃ p', allocate p t size = some (p',
        AllocationId.ofObject (encode p.epoch (astep s t b).2)) ∧
      Sim p' (astep s t b).1 ∧ p'.epoch = p.epoch := by
    intro tid count n hlt hcount hpair hcase
    have hal := allocate_many_eq p t size hsize (by omega)
      (splitThreadId (BitVec.ofNat 64 tid) (idBits b)) (BitVec.ofNat 64 n) (by rw [hbe]; exact hpair)
    have hnext := many_next count b hb hb1 hlt
    rw [hbe, hcount, hnext, hob] at hal
    have htok : (astep s t b).2 = ⟨b, tid, count⟩ := by
      rw [astep_spec s t b tid count n hcase]
      split
      · split <;> rfl
      · rfl
    rw [htok]
    refine ⟨_, hal, ?_, rfl⟩
    -- the new state of the abstract machine
    have habs : (astep s t b).1 = s.set t b n
        (if count + 1 = 2 ^ countBits b then none else some (tid, count + 1)) := by
      rw [astep_spec s t b tid count n hcase]
      split
      · rw [if_neg (by omega)]
      · rfl
    rw [habs]
    constructor
    · show p.globalThreadId = BitVec.ofNat 64 (if (0:Nat) = b then n else s.next 0)
      rw [if_neg (by omega)]
      exact h.global
    · intro c hc1 hc2
      show (if c = b then BitVec.ofNat 64 n else p.globalThreadIdPerOffset c) =
        BitVec.ofNat 64 (if c = b then n else s.next c)
      split
      · rfl
      · exact h.globalMany c hc1 hc2
    · intro u
      show SimSingle (if u = t then _ else p.threads u)
        (if u = t ∧ (0:Nat) = b then _ else s.own u 0)
      rw [if_neg (show ¬ (u = t ∧ 0 = b) from fun x => by omega)]
      have := h.single u
      by_cases hu : u = t
      · rw [if_pos hu]
        subst hu
        cases ho : s.own u 0 with
        | none => rw [ho] at this; exact this
        | some x => rw [ho] at this; exact this
      · rw [if_neg hu]
        exact this
    · intro u c hc1 hc2
      show SimMany (if u = t then _ else p.threads u) c
        (if u = t ∧ c = b then _ else s.own u c)
      have hmc := h.many u c hc1 hc2
      by_cases hu : u = t
      · rw [if_pos hu]
        subst hu
        by_cases hcb : c = b
        · subst hcb
          rw [if_pos (show u = u ∧ c = c from ⟨rfl, rfl⟩)]
          by_cases e : count + 1 = 2 ^ countBits c
          · rw [if_pos e, if_pos e]
            show (if c = c then 0#64 else _) = 0
            rw [if_pos rfl]
            rfl
          · rw [if_neg e, if_neg e]
            refine ⟨?_, ?_, by omega, by omega⟩
            · show (if c = c then _ else _) = _
              rw [if_pos rfl]
            · show (if c = c then _ else _) = _
              rw [if_pos rfl]
        · rw [if_neg (show ¬ (u = u ∧ c = b) from fun x => hcb x.2)]
          cases ho : s.own u c with
          | none =>
            rw [ho] at hmc
            show (if c = b then _ else _) = 0
            rw [if_neg hcb]
            exact hmc
          | some x =>
            rw [ho] at hmc
            obtain ⟨h1, h2, h3, h4⟩ := hmc
            refine ⟨?_, ?_, h3, h4⟩
            · show (if c = b then _ else _) = _
              rw [if_neg hcb]
              exact h1
            · show (if c = b then _ else _) = _
              rw [if_neg hcb]
              exact h2
      · rw [if_neg hu, if_neg (fun x => hu x.1)]
        exact hmc
  cases ho : s.own t b with
  | none =>
    rw [ho] at hs
    have hs : (p.threads t).allocationIdPerOffset b = 0 := hs
    refine key (s.next b) 0 (s.next b + 1) (Nat.two_pow_pos _) hs ?_ (Or.inl ⟨ho, rfl, rfl, rfl⟩)
    unfold initThreadIdPerOffset
    rw [if_pos hs, h.globalMany b hb1 hb, ofNat_succ, hidb]
  | some x =>
    obtain ⟨tid, count⟩ := x
    rw [ho] at hs
    obtain ⟨h1, h2, h3, h4⟩ := hs
    refine key tid count (s.next b) h4 h2 ?_ (Or.inr ⟨ho, rfl⟩)
    have hne : ¬ (p.threads t).allocationIdPerOffset b = 0 := by
      rw [h2]
      intro e
      have e' := congrArg BitVec.toNat e
      have hc16 : countBits b ≤ 16 := by
        unfold countBits localAllocationBitCount
        rw [if_neg (by omega)]
        omega
      have hp : 2 ^ countBits b ≤ 2 ^ 16 := Nat.pow_le_pow_right (by omega) hc16
      rw [BitVec.toNat_ofNat, Nat.mod_eq_of_lt (by omega)] at e'
      have : (0 : BitVec 64).toNat = 0 := rfl
      omega
    unfold initThreadIdPerOffset
    rw [if_neg hne, h1, h.globalMany b hb1 hb]

end Verif.ObjectId
