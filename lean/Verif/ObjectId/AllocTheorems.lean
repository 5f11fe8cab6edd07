import Verif.ObjectId.AllocSim
import Verif.ObjectId.IdTheorems

/-! C31: ids allocated by one process never collide; C32: sizes of allocations. -/

namespace Verif.ObjectId

/-! ## Specification -/

/-- No id belongs to both allocations. -/
def Disjoint (a b : AllocationId) : Prop :=
  ∀ x : ObjectId, ¬ (a.contains x = true ∧ b.contains x = true)

/-- The number of ids asked for. -/
def Call.size : Call → Nat
  | .objects n | .lists n | .dicts n | .schemas n => n.toNat
  | .object | .list | .dict | .schema => 1
  | .like a => a.capacity.toNat

/-- Is the event a call? -/
def Event.isCall : Event → Bool
  | .call _ _ => true
  | .reseed _ => false

/-- The call asks for at most `n` ids. -/
def Event.atMost (n : Nat) : Event → Prop
  | .call _ c => c.size ≤ n
  | .reseed _ => True

/-! ## Proofs -/

theorem idBits_le (b : Nat) (hb : b ≤ 40) : idBits b ≤ 46 := by
  unfold idBits countBits kIdBitCount localAllocationBitCount
  split <;> omega

theorem encode_id_div (e : BitVec 64) (k : Token) (hb : k.cls ≤ 40)
    (hc : k.count < 2 ^ countBits k.cls) (ht : k.tid < 2 ^ 64) :
    (encode e k).id.toNat / 2 ^ k.cls =
      k.count + (k.tid % 2 ^ (64 - idBits k.cls)) * 2 ^ countBits k.cls := by
  have hi := idBits_le k.cls hb
  have hsum : idBits k.cls = countBits k.cls + k.cls := rfl
  have hp : (0:Nat) < 2 ^ k.cls := Nat.two_pow_pos _
  have hcount : k.count * 2 ^ k.cls < 2 ^ idBits k.cls := by
    rw [hsum, Nat.pow_add]
    exact Nat.mul_lt_mul_of_pos_right hc hp
  have hpow : 2 ^ idBits k.cls ≤ 2 ^ 46 := Nat.pow_le_pow_right (by omega) hi
  have hcle : k.count ≤ k.count * 2 ^ k.cls := Nat.le_mul_of_pos_right _ hp
  have hsplit : (2:Nat) ^ 64 = 2 ^ (64 - idBits k.cls) * 2 ^ idBits k.cls := by
    rw [← Nat.pow_add]
    congr 1
    omega
  have hhi : (splitThreadId (BitVec.ofNat 64 k.tid) (idBits k.cls)).2.toNat =
      2 ^ idBits k.cls * (k.tid % 2 ^ (64 - idBits k.cls)) := by
    show (BitVec.ofNat 64 k.tid <<< idBits k.cls).toNat = _
    rw [BitVec.toNat_shiftLeft, BitVec.toNat_ofNat, Nat.mod_eq_of_lt ht, Nat.shiftLeft_eq, hsplit,
      Nat.mul_mod_mul_right, Nat.mul_comm]
  have hlo : (BitVec.ofNat 64 k.count <<< k.cls).toNat = k.count * 2 ^ k.cls := by
    rw [BitVec.toNat_shiftLeft, BitVec.toNat_ofNat, Nat.mod_eq_of_lt (a := k.count) (by omega),
      Nat.shiftLeft_eq, Nat.mod_eq_of_lt (by omega)]
  have hid : (encode e k).id.toNat =
      2 ^ idBits k.cls * (k.tid % 2 ^ (64 - idBits k.cls)) + k.count * 2 ^ k.cls := by
    show ((BitVec.ofNat 64 k.count <<< k.cls) |||
      (splitThreadId (BitVec.ofNat 64 k.tid) (idBits k.cls)).2).toNat = _
    rw [BitVec.toNat_or, hhi, hlo, Nat.or_comm, Nat.two_pow_add_eq_or_of_lt hcount]
  rw [hid, hsum, Nat.pow_add]
  have : 2 ^ countBits k.cls * 2 ^ k.cls * (k.tid % 2 ^ (64 - (countBits k.cls + k.cls))) +
      k.count * 2 ^ k.cls =
      (k.count + k.tid % 2 ^ (64 - (countBits k.cls + k.cls)) * 2 ^ countBits k.cls) *
        2 ^ k.cls := by
    rw [Nat.add_mul, Nat.mul_right_comm, Nat.mul_comm (2 ^ countBits k.cls) (k.tid % _),
      Nat.add_comm]
  rw [this, Nat.mul_div_cancel _ hp]

theorem count_eq {c1 c2 x1 x2 L : Nat} (h1 : c1 < 2 ^ L) (h2 : c2 < 2 ^ L)
    (h : c1 + x1 * 2 ^ L = c2 + x2 * 2 ^ L) : c1 = c2 ∧ x1 = x2 := by
  have e1 : (c1 + x1 * 2 ^ L) % 2 ^ L = c1 := by
    rw [Nat.add_mul_mod_self_right, Nat.mod_eq_of_lt h1]
  have e2 : (c2 + x2 * 2 ^ L) % 2 ^ L = c2 := by
    rw [Nat.add_mul_mod_self_right, Nat.mod_eq_of_lt h2]
  rw [h] at e1
  have hc : c1 = c2 := e1.symm.trans e2
  subst hc
  refine ⟨rfl, ?_⟩
  have : x1 * 2 ^ L = x2 * 2 ^ L := by omega
  exact Nat.eq_of_mul_eq_mul_right (Nat.two_pow_pos _) this

theorem encode_allocator (e : BitVec 64) (k : Token) (ht : k.tid < 2 ^ 64) :
    (encode e k).allocatorId.toNat =
      (((allocatorId e).setWidth 52).toNat + k.tid / 2 ^ (64 - idBits k.cls) % 2 ^ 52) % 2 ^ 52 := by
  show (_ + (splitThreadId (BitVec.ofNat 64 k.tid) (idBits k.cls)).1.setWidth 52).toNat = _
  rw [BitVec.toNat_add]
  congr 2
  show ((BitVec.ofNat 64 k.tid >>> (64 - idBits k.cls)).setWidth 52).toNat = _
  rw [BitVec.toNat_setWidth, BitVec.toNat_ushiftRight, BitVec.toNat_ofNat, Nat.mod_eq_of_lt ht,
    Nat.shiftRight_eq_div_pow]

/-- Tokens of ids that share an allocation are equal. -/
theorem encode_inj (e1 e2 : BitVec 64) (k1 k2 : Token)
    (hb1 : k1.cls ≤ 40) (hb2 : k2.cls ≤ 40)
    (hc1 : k1.count < 2 ^ countBits k1.cls) (hc2 : k2.count < 2 ^ countBits k2.cls)
    (ht1 : k1.tid < 2 ^ 64) (ht2 : k2.tid < 2 ^ 64)
    (he : e1 = e2 ∨ (k1.tid < 2 ^ 18 ∧ k2.tid < 2 ^ 18))
    (hcls : (encode e1 k1).offsetBits = (encode e2 k2).offsetBits)
    (hall : (encode e1 k1).allocatorId = (encode e2 k2).allocatorId)
    (hid : (encode e1 k1).id.toNat / 2 ^ (encode e1 k1).offsetBits.toNat =
      (encode e2 k2).id.toNat / 2 ^ (encode e1 k1).offsetBits.toNat) : k1 = k2 := by
  have hbits : ∀ (e : BitVec 64) (k : Token), k.cls ≤ 40 →
      (encode e k).offsetBits.toNat = k.cls := by
    intro e k hk
    show (BitVec.ofNat 6 k.cls).toNat = _
    rw [BitVec.toNat_ofNat, Nat.mod_eq_of_lt (by omega)]
  have hcls' : k1.cls = k2.cls := by
    rw [← hbits e1 k1 hb1, ← hbits e2 k2 hb2, hcls]
  rw [hbits e1 k1 hb1, encode_id_div e1 k1 hb1 hc1 ht1] at hid
  rw [hcls', encode_id_div e2 k2 hb2 hc2 ht2, ← hcls'] at hid
  rw [← hcls'] at hc2
  obtain ⟨hcount, hmod⟩ := count_eq hc1 hc2 hid
  have hi := idBits_le k1.cls hb1
  have htid : k1.tid = k2.tid := by
    rcases he with rfl | ⟨hl1, hl2⟩
    · have ha := congrArg BitVec.toNat hall
      rw [encode_allocator e1 k1 ht1, encode_allocator e1 k2 ht2, ← hcls'] at ha
      have hq : ∀ t : Nat, t < 2 ^ 64 → t / 2 ^ (64 - idBits k1.cls) < 2 ^ 46 := by
        intro t ht
        rw [Nat.div_lt_iff_lt_mul (Nat.two_pow_pos _)]
        have : (2:Nat) ^ 64 = 2 ^ idBits k1.cls * 2 ^ (64 - idBits k1.cls) := by
          rw [← Nat.pow_add]
          congr 1
          omega
        rw [this] at ht
        refine Nat.lt_of_lt_of_le ht (Nat.mul_le_mul_right _ ?_)
        exact Nat.pow_le_pow_right (by omega) hi
      have q1 := hq k1.tid ht1
      have q2 := hq k2.tid ht2
      have hA : ((allocatorId e1).setWidth 52).toNat < 2 ^ 52 := BitVec.isLt _
      rw [Nat.mod_eq_of_lt (a := k1.tid / _) (by omega),
        Nat.mod_eq_of_lt (a := k2.tid / _) (by omega)] at ha
      have hdiv : k1.tid / 2 ^ (64 - idBits k1.cls) = k2.tid / 2 ^ (64 - idBits k1.cls) := by
        generalize ((allocatorId e1).setWidth 52).toNat = A at ha hA
        generalize k1.tid / 2 ^ (64 - idBits k1.cls) = x at ha q1 ⊢
        generalize k2.tid / 2 ^ (64 - idBits k1.cls) = y at ha q2 ⊢
        omega
      rw [← Nat.div_add_mod k1.tid (2 ^ (64 - idBits k1.cls)), hdiv, hmod, Nat.div_add_mod]
    · have hle : 2 ^ 18 ≤ 2 ^ (64 - idBits k1.cls) :=
        Nat.pow_le_pow_right (by omega) (by omega)
      rw [Nat.mod_eq_of_lt (by omega), Nat.mod_eq_of_lt (by omega)] at hmod
      exact hmod
  cases k1; cases k2
  simp only at hcls' hcount htid
  subst hcls' hcount htid
  rfl

/-- Changes the metadata of an id. -/
def withMeta (m : BitVec 6) (o : ObjectId) : ObjectId := { o with metadata := m }

/-- What a call returns: the allocation of some token, with some metadata. -/
def build (x : BitVec 64 × BitVec 6 × Token) : AllocationId :=
  AllocationId.ofObject (withMeta x.2.1 (encode x.1 x.2.2))

theorem build_disjoint (x y : BitVec 64 × BitVec 6 × Token)
    (hb1 : x.2.2.cls ≤ 40) (hb2 : y.2.2.cls ≤ 40)
    (hc1 : x.2.2.count < 2 ^ countBits x.2.2.cls) (hc2 : y.2.2.count < 2 ^ countBits y.2.2.cls)
    (ht1 : x.2.2.tid < 2 ^ 64) (ht2 : y.2.2.tid < 2 ^ 64)
    (he : x.1 = y.1 ∨ (x.2.2.tid < 2 ^ 18 ∧ y.2.2.tid < 2 ^ 18))
    (hne : x.2.2 ≠ y.2.2) : Disjoint (build x) (build y) := by
  rintro o ⟨h1, h2⟩
  unfold build at h1 h2
  rw [contains_iff] at h1 h2
  have hh := h1.1.trans h2.1.symm
  obtain ⟨_, e2, e3⟩ := high64_inj.1 hh
  apply hne
  have e2' : (encode x.1 x.2.2).offsetBits = (encode y.1 y.2.2).offsetBits := e2
  have e4 := h1.2
  have e5 := h2.2
  refine encode_inj x.1 y.1 _ _ hb1 hb2 hc1 hc2 ht1 ht2 he e2' e3 ?_
  have e4' : o.id.toNat / 2 ^ (encode x.1 x.2.2).offsetBits.toNat =
    (encode x.1 x.2.2).id.toNat / 2 ^ (encode x.1 x.2.2).offsetBits.toNat := e4
  have e5' : o.id.toNat / 2 ^ (encode y.1 y.2.2).offsetBits.toNat =
    (encode y.1 y.2.2).id.toNat / 2 ^ (encode y.1 y.2.2).offsetBits.toNat := e5
  rw [← e4', e2', e5']

/-- The class of an allocation of `size` ids. -/
theorem allocate_sim {p : Process} {s : Abs} (h : Sim p s) (t : Nat) (size : BitVec 64)
    (hsize : size.toNat ≤ 2 ^ 63) :
    (2 ^ 40 < size.toNat ∧ allocate p t size = none) ∨
    (size.toNat ≤ 2 ^ 40 ∧ ∃ p' b, b ≤ 40 ∧
      (size.toNat ≤ 2 ^ b ∧ ∀ k, size.toNat ≤ 2 ^ k → b ≤ k) ∧
      allocate p t size = some (p', AllocationId.ofObject (encode p.epoch (astep s t b).2)) ∧
      Sim p' (astep s t b).1 ∧ p'.epoch = p.epoch) := by
  by_cases h1 : size.toNat ≤ 1
  · right
    refine ⟨by omega, ?_⟩
    have hs := allocateSingle_sim h t
    refine ⟨(allocateSingleObject p t).1, 0, by omega, ⟨by simpa using h1, by omega⟩, ?_,
      hs.2.1, hs.2.2⟩
    unfold allocate
    rw [if_pos h1, ← hs.1]
  · have hspec := offsetBits_spec size (by omega) hsize
    by_cases h2 : size.toNat ≤ 2 ^ 40
    · right
      have hb := hspec.2 40 h2
      have hb1 : 1 ≤ (offsetBitsFor size).toNat := by
        rcases Nat.eq_zero_or_pos (offsetBitsFor size).toNat with e | e
        · rw [e] at hspec
          have := hspec.1
          omega
        · exact e
      obtain ⟨p', hp⟩ := allocateMany_sim h t size h1 hb1 hb
      exact ⟨h2, p', _, hb, hspec, hp⟩
    · left
      refine ⟨by omega, ?_⟩
      unfold allocate
      rw [if_neg h1]
      simp only
      rw [if_neg]
      intro hb
      have : 2 ^ (offsetBitsFor size).toNat ≤ 2 ^ 40 := Nat.pow_le_pow_right (by omega) hb
      have := hspec.1
      omega

theorem ofObject_withMeta (m : BitVec 6) (o : ObjectId) :
    (⟨withMeta m (AllocationId.ofObject o).raw⟩ : AllocationId) =
      AllocationId.ofObject (withMeta m o) := rfl

/-- The metadata a call gives its ids. -/
def Call.meta : Call → BitVec 6
  | .objects _ | .object => 0
  | .lists _ | .list => kListFlag
  | .dicts _ | .dict => kDictFlag
  | .schemas _ | .schema => kExplicitSchemaFlag
  | .like a => a.raw.metadata &&& ~~~kUuidFlag

theorem call_sim {p : Process} {s : Abs} (h : Sim p s) (t : Nat) (c : Call)
    (hsize : c.size ≤ 2 ^ 63) :
    (2 ^ 40 < c.size ∧ call p t c = none) ∨
    (c.size ≤ 2 ^ 40 ∧ ∃ p' b, b ≤ 40 ∧ (c.size ≤ 2 ^ b ∧ ∀ k, c.size ≤ 2 ^ k → b ≤ k) ∧
      call p t c = some (p', build (p.epoch, c.meta, (astep s t b).2)) ∧
      Sim p' (astep s t b).1 ∧ p'.epoch = p.epoch) := by
  have hz : ∀ m : BitVec 6, 0 ||| m = m := by decide
  have hsingle := allocateSingle_sim h t
  have many : ∀ (size : BitVec 64) (flag : BitVec 6), size.toNat ≤ 2 ^ 63 →
      (2 ^ 40 < size.toNat ∧ allocateWithFlag p t size flag = none) ∨
      (size.toNat ≤ 2 ^ 40 ∧ ∃ p' b, b ≤ 40 ∧
        (size.toNat ≤ 2 ^ b ∧ ∀ k, size.toNat ≤ 2 ^ k → b ≤ k) ∧
        allocateWithFlag p t size flag =
          some (p', build (p.epoch, flag, (astep s t b).2)) ∧
        Sim p' (astep s t b).1 ∧ p'.epoch = p.epoch) := by
    intro size flag hs
    rcases allocate_sim h t size hs with ⟨h1, h2⟩ | ⟨h1, p', b, hb, hcap, h2, h3, h4⟩
    · left
      refine ⟨h1, ?_⟩
      unfold allocateWithFlag
      rw [h2]
    · right
      refine ⟨h1, p', b, hb, hcap, ?_, h3, h4⟩
      unfold allocateWithFlag
      rw [h2]
      simp only
      congr 2
      show (⟨withMeta (0 ||| flag) (AllocationId.ofObject _).raw⟩ : AllocationId) = _
      rw [hz, ofObject_withMeta]
      rfl
  have single : ∀ flag : BitVec 6, ∃ p' b, b ≤ 40 ∧
      (1 ≤ 2 ^ b ∧ ∀ k, 1 ≤ 2 ^ k → b ≤ k) ∧
      asAllocation (allocateSingleWithFlag p t flag) =
        some (p', build (p.epoch, flag, (astep s t b).2)) ∧
      Sim p' (astep s t b).1 ∧ p'.epoch = p.epoch := by
    intro flag
    refine ⟨_, 0, by omega, ⟨by omega, by omega⟩, ?_, hsingle.2.1, hsingle.2.2⟩
    unfold asAllocation allocateSingleWithFlag
    simp only
    rw [hsingle.1]
    congr 3
    show withMeta (0 ||| flag) _ = _
    rw [hz]
  cases c with
  | objects size =>
    rcases allocate_sim h t size hsize with h1 | h1
    · exact Or.inl h1
    · exact Or.inr h1
  | lists size => exact many size kListFlag hsize
  | dicts size => exact many size kDictFlag hsize
  | schemas size => exact many size kExplicitSchemaFlag hsize
  | object =>
    right
    refine ⟨by show 1 ≤ 2 ^ 40; omega, _, 0, by omega, ⟨by show 1 ≤ 1; omega, by omega⟩, ?_,
      hsingle.2.1, hsingle.2.2⟩
    unfold call asAllocation
    simp only
    rw [hsingle.1]
    rfl
  | list => exact Or.inr ⟨by show 1 ≤ 2 ^ 40; omega, single kListFlag⟩
  | dict => exact Or.inr ⟨by show 1 ≤ 2 ^ 40; omega, single kDictFlag⟩
  | schema => exact Or.inr ⟨by show 1 ≤ 2 ^ 40; omega, single kExplicitSchemaFlag⟩
  | like a =>
    rcases allocate_sim h t a.capacity hsize with ⟨h1, h2⟩ | ⟨h1, p', b, hb, hcap, h2, h3, h4⟩
    · left
      refine ⟨h1, ?_⟩
      show newAllocationIdLike p t a = none
      unfold newAllocationIdLike
      rw [h2]
    · right
      refine ⟨h1, p', b, hb, hcap, ?_, h3, h4⟩
      show newAllocationIdLike p t a = _
      unfold newAllocationIdLike
      rw [h2]
      rfl

/-- The epochs that a schedule sets. -/
def epochs : List Event → List (BitVec 64)
  | [] => []
  | .reseed e :: rest => e :: epochs rest
  | .call _ _ :: rest => epochs rest

theorem run_spec (evs : List Event) : ∀ (p : Process) (s : Abs) (used : List Token) (bound : Nat),
    Sim p s → Inv s used → (∀ b, s.next b + evs.length ≤ bound) →
    (∀ ev ∈ evs, ev.atMost (2 ^ 63)) →
    ∀ as, run p evs = some as → ∃ l : List (BitVec 64 × BitVec 6 × Token),
      as = l.map build ∧ (∀ x ∈ l, x.2.2 ∉ used) ∧ (l.map (fun x => x.2.2)).Nodup ∧
      (∀ x ∈ l, x.2.2.cls ≤ 40 ∧ x.2.2.count < 2 ^ countBits x.2.2.cls ∧ x.2.2.tid < bound ∧
        (x.1 = p.epoch ∨ x.1 ∈ epochs evs)) := by
  induction evs with
  | nil =>
    intro p s used bound _ _ _ _ as h
    simp only [run, Option.some.injEq] at h
    subst h
    exact ⟨[], rfl, by simp, by simp, by simp⟩
  | cons ev rest ih =>
    intro p s used bound hsim hinv hbound hok as h
    simp only [List.length_cons] at hbound
    cases ev with
    | reseed e =>
      have hsim' : Sim { p with epoch := e } s := ⟨hsim.global, hsim.globalMany, hsim.single, hsim.many⟩
      obtain ⟨l, h1, h2, h3, h4⟩ := ih { p with epoch := e } s used bound hsim' hinv
        (fun b => by have := hbound b; omega) (fun ev hev => hok ev (List.mem_cons_of_mem _ hev)) as h
      refine ⟨l, h1, h2, h3, fun x hx => ?_⟩
      obtain ⟨g1, g2, g3, g4⟩ := h4 x hx
      refine ⟨g1, g2, g3, Or.inr ?_⟩
      show x.1 ∈ e :: epochs rest
      rcases g4 with g4 | g4
      · exact List.mem_cons.2 (Or.inl g4)
      · exact List.mem_cons_of_mem _ g4
    | call t c =>
      have hsize : c.size ≤ 2 ^ 63 := hok _ (List.mem_cons_self ..)
      rcases call_sim hsim t c hsize with ⟨_, hn⟩ | ⟨_, p', b, hb, _, hc, hsim', hep⟩
      · simp [run, hn] at h
      · simp only [run, hc] at h
        have hfresh := astep_fresh hinv t b
        have hinv' := inv_astep hinv t b hb
        cases hr : run p' rest with
        | none => simp [hr] at h
        | some as' =>
          rw [hr] at h
          simp only [Option.some.injEq] at h
          subst h
          obtain ⟨l, h1, h2, h3, h4⟩ := ih p' _ _ bound hsim' hinv'
            (fun c => by
              have := hbound c
              have := astep_next s t b c hb
              omega)
            (fun ev hev => hok ev (List.mem_cons_of_mem _ hev)) as' hr
          refine ⟨(p.epoch, c.meta, (astep s t b).2) :: l, ?_, ?_, ?_, ?_⟩
          · rw [h1]
            rfl
          · intro x hx
            rcases List.mem_cons.1 hx with rfl | hx
            · exact hfresh
            · exact fun hu => h2 x hx (List.mem_cons_of_mem _ hu)
          · rw [List.map_cons, List.nodup_cons]
            refine ⟨?_, h3⟩
            intro hm
            obtain ⟨x, hx, e⟩ := List.mem_map.1 hm
            exact h2 x hx (by rw [e]; exact List.mem_cons_self ..)
          · intro x hx
            rcases List.mem_cons.1 hx with rfl | hx
            · have hu := hinv'.used_lt _ (List.mem_cons_self ..)
              have hk := hinv'.used_count _ (List.mem_cons_self ..)
              have hcls : (astep s t b).2.cls = b := by
                rcases astep_tok s t b with ⟨_, e⟩ | ⟨_, _, _, e⟩ <;> rw [e]
              refine ⟨?_, hk, ?_, Or.inl rfl⟩
              · show (astep s t b).2.cls ≤ 40
                omega
              · show (astep s t b).2.tid < bound
                have h9 := astep_next s t b (astep s t b).2.cls hb
                have h8 := hbound (astep s t b).2.cls
                omega
            · obtain ⟨g1, g2, g3, g4⟩ := h4 x hx
              refine ⟨g1, g2, g3, ?_⟩
              rcases g4 with g4 | g4
              · left
                rw [g4, hep]
              · exact Or.inr g4

theorem pairwise_of_nodup (l : List (BitVec 64 × BitVec 6 × Token))
    (hn : (l.map (fun x => x.2.2)).Nodup)
    (hd : ∀ x ∈ l, ∀ y ∈ l, x.2.2 ≠ y.2.2 → Disjoint (build x) (build y)) :
    (l.map build).Pairwise Disjoint := by
  induction l with
  | nil => simp
  | cons a l ih =>
    rw [List.map_cons, List.nodup_cons] at hn
    rw [List.map_cons, List.pairwise_cons]
    constructor
    · intro b hb
      obtain ⟨y, hy, rfl⟩ := List.mem_map.1 hb
      apply hd a (List.mem_cons_self ..) y (List.mem_cons_of_mem _ hy)
      intro e
      exact hn.1 (List.mem_map.2 ⟨y, hy, e.symm⟩)
    · exact ih hn.2 (fun x hx y hy => hd x (List.mem_cons_of_mem _ hx) y (List.mem_cons_of_mem _ hy))

theorem epochs_none (evs : List Event) (h : ∀ ev ∈ evs, ev.isCall = true) : epochs evs = [] := by
  induction evs with
  | nil => rfl
  | cons ev rest ih =>
    cases ev with
    | reseed e => exact absurd (h _ (List.mem_cons_self ..)) (by simp [Event.isCall])
    | call t c => exact ih (fun ev hev => h ev (List.mem_cons_of_mem _ hev))

/-- C31. Whatever calls are made by whatever threads in whatever interleaving, no
id belongs to two of the returned allocations. At most 2^64 calls are made, none
of them for more than 2^63 ids, and the process keeps its random epoch. -/
theorem C31_allocations_are_disjoint (epoch : BitVec 64) (evs : List Event)
    (hcalls : ∀ ev ∈ evs, ev.isCall = true)
    (hlen : evs.length ≤ 2 ^ 64) (hsize : ∀ ev ∈ evs, ev.atMost (2 ^ 63))
    (as : List AllocationId) (h : run { epoch := epoch } evs = some as) :
    as.Pairwise Disjoint := by
  obtain ⟨l, rfl, _, h3, h4⟩ := run_spec evs _ _ [] (2 ^ 64) (sim_init epoch) inv_init
    (fun b => by show 0 + _ ≤ _; omega) hsize as h
  rw [epochs_none evs hcalls] at h4
  apply pairwise_of_nodup l h3
  intro x hx y hy hne
  obtain ⟨a1, a2, a3, a4⟩ := h4 x hx
  obtain ⟨b1, b2, b3, b4⟩ := h4 y hy
  simp only [List.not_mem_nil, or_false] at a4 b4
  exact build_disjoint x y a1 b1 a2 b2 a3 b3 (Or.inl (a4.trans b4.symm)) hne

/-- C31 when the pseudo random generator may be reseeded at any point, for up to
2^18 events. -/
theorem C31_disjoint_across_reseeds (epoch : BitVec 64) (evs : List Event)
    (hlen : evs.length ≤ 2 ^ 18) (hsize : ∀ ev ∈ evs, ev.atMost (2 ^ 63))
    (as : List AllocationId) (h : run { epoch := epoch } evs = some as) :
    as.Pairwise Disjoint := by
  obtain ⟨l, rfl, _, h3, h4⟩ := run_spec evs _ _ [] (2 ^ 18) (sim_init epoch) inv_init
    (fun b => by show 0 + _ ≤ _; omega) hsize as h
  apply pairwise_of_nodup l h3
  intro x hx y hy hne
  obtain ⟨a1, a2, a3, a4⟩ := h4 x hx
  obtain ⟨b1, b2, b3, b4⟩ := h4 y hy
  exact build_disjoint x y a1 b1 a2 b2 (by omega) (by omega) (Or.inr ⟨a3, b3⟩) hne

theorem run_total (evs : List Event) : ∀ (p : Process) (s : Abs), Sim p s →
    (∀ ev ∈ evs, ev.atMost (2 ^ 40)) →
    ∃ as, run p evs = some as ∧ as.length = (evs.filter Event.isCall).length := by
  induction evs with
  | nil => intro p s _ _; exact ⟨[], rfl, rfl⟩
  | cons ev rest ih =>
    intro p s hsim hok
    have hrest : ∀ ev ∈ rest, ev.atMost (2 ^ 40) := fun ev hev => hok ev (List.mem_cons_of_mem _ hev)
    cases ev with
    | reseed e =>
      have hsim' : Sim { p with epoch := e } s := ⟨hsim.global, hsim.globalMany, hsim.single, hsim.many⟩
      obtain ⟨as, h1, h2⟩ := ih { p with epoch := e } s hsim' hrest
      exact ⟨as, h1, by rw [h2]; rfl⟩
    | call t c =>
      have hsize : c.size ≤ 2 ^ 40 := hok _ (List.mem_cons_self ..)
      rcases call_sim hsim t c (by omega) with ⟨h1, _⟩ | ⟨_, p', b, _, _, hc, hsim', _⟩
      · omega
      · obtain ⟨as, h1, h2⟩ := ih p' _ hsim' hrest
        refine ⟨build (p.epoch, c.meta, (astep s t b).2) :: as, ?_, ?_⟩
        · simp only [run, hc, h1]
        · simp [List.filter_cons, Event.isCall, h2]

/-- C31. Calls for at most 2^40 ids all succeed and each returns an allocation. -/
theorem C31_calls_succeed (epoch : BitVec 64) (evs : List Event)
    (hsize : ∀ ev ∈ evs, ev.atMost (2 ^ 40)) :
    ∃ as, run { epoch := epoch } evs = some as ∧
      as.length = (evs.filter Event.isCall).length :=
  run_total evs _ _ (sim_init epoch) hsize

/-- States a process can be in. -/
inductive Reachable : Process → Prop
  | start (epoch : BitVec 64) : Reachable { epoch := epoch }
  | reseed {p : Process} (e : BitVec 64) : Reachable p → Reachable { p with epoch := e }
  | call {p p' : Process} (t : Nat) (c : Call) (a : AllocationId) : Reachable p →
      c.size ≤ 2 ^ 63 → call p t c = some (p', a) → Reachable p'

theorem reachable_sim {p : Process} (h : Reachable p) : ∃ s, Sim p s := by
  induction h with
  | start e => exact ⟨_, sim_init e⟩
  | reseed e _ ih =>
    obtain ⟨s, hs⟩ := ih
    exact ⟨s, hs.global, hs.globalMany, hs.single, hs.many⟩
  | call t c a _ hsize hc ih =>
    obtain ⟨s, hs⟩ := ih
    rcases call_sim hs t c hsize with ⟨_, h2⟩ | ⟨_, p'', b, _, _, h2, h3, _⟩
    · rw [hc] at h2
      cases h2
    · rw [hc] at h2
      simp only [Option.some.injEq, Prod.mk.injEq] at h2
      exact ⟨_, by rw [h2.1]; exact h3⟩

/-- C32. An allocation of `n ≤ 2^40` ids has as capacity the least power of two that
is at least `n`, its first id has offset 0, and its ids have the type flags of the
call; for more ids (up to 2^63) the process is terminated. -/
theorem C32_allocation_size (p : Process) (hp : Reachable p) (t : Nat) (c : Call)
    (hsize : c.size ≤ 2 ^ 63) :
    (2 ^ 40 < c.size ∧ call p t c = none) ∨
    (c.size ≤ 2 ^ 40 ∧ ∃ p' a b, call p t c = some (p', a) ∧ a.capacity.toNat = 2 ^ b ∧
      c.size ≤ 2 ^ b ∧ (∀ k, c.size ≤ 2 ^ k → 2 ^ b ≤ 2 ^ k) ∧
      AllocationId.ofObject a.raw = a ∧ a.raw.metadata = c.meta) := by
  obtain ⟨s, hs⟩ := reachable_sim hp
  rcases call_sim hs t c hsize with h | ⟨h1, p', b, hb, hcap, h2, _, _⟩
  · exact Or.inl h
  · refine Or.inr ⟨h1, p', _, b, h2, ?_, hcap.1,
      fun k hk => Nat.pow_le_pow_right (by omega) (hcap.2 k hk), ?_, rfl⟩
    · rw [capacity_toNat]
      congr 1
      have hcls : (astep s t b).2.cls = b := by
        rcases astep_tok s t b with ⟨_, e⟩ | ⟨_, _, _, e⟩ <;> rw [e]
      show (BitVec.ofNat 6 (astep s t b).2.cls).toNat = b
      rw [BitVec.toNat_ofNat, hcls, Nat.mod_eq_of_lt (by omega)]
    · unfold build
      rw [ofObject_eq_iff]
      refine ⟨rfl, ?_⟩
      exact ofObject_div _

/-- C31, limits. A call for more than 2^63 ids is not stopped by the `CHECK`: the
number of offset bits, 64, is stored as 0, and the allocation collides with one
that a single object gets. -/
theorem C31_huge_size_counterexample :
    ∃ a, run { epoch := 7 } [.call 0 (.objects (2 ^ 63 + 1)), .call 0 .object] = some [a, a] :=
  ⟨⟨⟨7, 0, 0, 0⟩⟩, by decide +kernel⟩

/-- Two threads, four kinds of calls: all of them distinct. -/
example : run { epoch := 7 }
    [.call 0 .object, .call 1 .object, .call 0 .list, .call 0 (.lists 5), .call 1 (.dicts 7),
      .call 0 (.schemas 8)] =
    some [⟨⟨7, 0, 0, 0⟩⟩, ⟨⟨7, 0, 0, 0x1000000⟩⟩, ⟨⟨7, 0, kListFlag, 1⟩⟩,
      ⟨⟨7, 3, kListFlag, 0⟩⟩, ⟨⟨7, 3, kDictFlag, 0x40000⟩⟩,
      ⟨⟨7, 3, kExplicitSchemaFlag, 8⟩⟩] := by decide

end Verif.ObjectId
