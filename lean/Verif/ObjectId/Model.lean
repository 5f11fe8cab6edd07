/-!
Model of `koladata/internal/object_id.{h,cc}`: the 128 bit item ids, their
allocations, the functions that make and change ids, and the allocators.
-/

namespace Verif.ObjectId

/-- `ObjectId` (object_id.h:237-262). The bit fields of the first word and the
second word. Assigning a wider number to a bit field keeps its low bits; this
is `BitVec.setWidth` below. -/
structure ObjectId where
  /-- `allocator_id_ : 52` -/
  allocatorId : BitVec 52
  /-- `offset_bits_ : 6` -/
  offsetBits : BitVec 6
  /-- `metadata_ : 6` -/
  metadata : BitVec 6
  /-- `id_` -/
  id : BitVec 64
deriving DecidableEq, Repr

/-- `kUuidFlag` (object_id.h:148). -/
def kUuidFlag : BitVec 6 := 0b000001
/-- `kListFlag` (object_id.h:152). -/
def kListFlag : BitVec 6 := 0b000010
/-- `kDictFlag` (object_id.h:156). -/
def kDictFlag : BitVec 6 := 0b000100
/-- `kStartSchemaFlag` (object_id.h:161). -/
def kStartSchemaFlag : BitVec 6 := 0b111000
/-- `kUuidImplicitSchemaFlag` (object_id.h:162). -/
def kUuidImplicitSchemaFlag : BitVec 6 := 0b111001
/-- `kStartExplicitSchemaFlag` (object_id.h:163). -/
def kStartExplicitSchemaFlag : BitVec 6 := 0b111010
/-- `kNoFollowSchemaFlag` (object_id.h:166). -/
def kNoFollowSchemaFlag : BitVec 6 := 0b111010
/-- `kNoFollowObjectSchemaFlag` (object_id.h:167-168). -/
def kNoFollowObjectSchemaFlag : BitVec 6 := kNoFollowSchemaFlag
/-- `kExplicitSchemaFlag` (object_id.h:171). -/
def kExplicitSchemaFlag : BitVec 6 := 0b111100
/-- `kUuidExplicitSchemaFlag` (object_id.h:172). -/
def kUuidExplicitSchemaFlag : BitVec 6 := 0b111101
/-- `kUnspecifiedFlag` (object_id.h:180). -/
def kUnspecifiedFlag : BitVec 6 := 0b101111
/-- `kSmallAllocMaxBits` (object_id.h:50). -/
def kSmallAllocMaxBits : Nat := 1

namespace ObjectId

/-- `ObjectId::Offset` (object_id.h:77). -/
def offset (o : ObjectId) : BitVec 64 := o.id &&& ((1#64 <<< o.offsetBits.toNat) - 1#64)

/-- `ObjectId::IsUuid` (object_id.h:83). -/
def isUuid (o : ObjectId) : Bool := (o.metadata &&& kUuidFlag) != 0
/-- `ObjectId::IsAllocated` (object_id.h:81). -/
def isAllocated (o : ObjectId) : Bool := !o.isUuid
/-- `ObjectId::IsEntity` (object_id.h:85). -/
def isEntity (o : ObjectId) : Bool := (o.metadata &&& ~~~kUuidFlag) == 0
/-- `ObjectId::IsList` (object_id.h:87). -/
def isList (o : ObjectId) : Bool := (o.metadata &&& ~~~kUuidFlag) == kListFlag
/-- `ObjectId::IsDict` (object_id.h:89). -/
def isDict (o : ObjectId) : Bool := (o.metadata &&& ~~~kUuidFlag) == kDictFlag
/-- `ObjectId::IsSchema` (object_id.h:91). -/
def isSchema (o : ObjectId) : Bool := kStartSchemaFlag.toNat ≤ o.metadata.toNat
/-- `ObjectId::IsExplicitSchema` (object_id.h:93-95). -/
def isExplicitSchema (o : ObjectId) : Bool :=
  kStartExplicitSchemaFlag.toNat ≤ o.metadata.toNat
/-- `ObjectId::IsImplicitSchema` (object_id.h:97). -/
def isImplicitSchema (o : ObjectId) : Bool := o.metadata == kUuidImplicitSchemaFlag
/-- `ObjectId::IsNoFollowSchema` (object_id.h:99-101). -/
def isNoFollowSchema (o : ObjectId) : Bool :=
  (o.metadata &&& kNoFollowSchemaFlag) == kNoFollowSchemaFlag
/-- `ObjectId::IsSmallAlloc` (object_id.h:112). -/
def isSmallAlloc (o : ObjectId) : Bool := o.offsetBits.toNat ≤ kSmallAllocMaxBits

/-- `ObjectId::InternalHigh64` (object_id.h:202-204): the first word; bit fields
are laid out from the least significant bit (little endian only, h:233-235). -/
def high64 (o : ObjectId) : BitVec 64 := (o.metadata ++ o.offsetBits) ++ o.allocatorId

/-- `ObjectId::InternalLow64` (object_id.h:205). -/
def low64 (o : ObjectId) : BitVec 64 := o.id

/-- `ObjectId::UnsafeCreateFromInternalHighLow` (object_id.h:206-211). -/
def ofHighLow (hi lo : BitVec 64) : ObjectId where
  allocatorId := hi.extractLsb' 0 52
  offsetBits := hi.extractLsb' 52 6
  metadata := hi.extractLsb' 58 6
  id := lo

/-- `ObjectId::ToRawInt128` (object_id.h:104-106). -/
def toRawInt128 (o : ObjectId) : BitVec 128 := o.high64 ++ o.low64

/-- `operator==` (object_id.h:114-117). -/
def eq (a b : ObjectId) : Bool := a.high64 == b.high64 && a.low64 == b.low64

/-- `operator<=>` (object_id.h:118-121), the "less" of it. -/
def lt (a b : ObjectId) : Bool :=
  a.high64.toNat < b.high64.toNat ||
    (a.high64 == b.high64 && a.low64.toNat < b.low64.toNat)

/-- `ObjectId::NoFollowObjectSchemaId` (object_id.cc:46-53). -/
def noFollowObjectSchemaId : ObjectId where
  allocatorId := 0
  offsetBits := 0
  metadata := kNoFollowObjectSchemaFlag
  id := 0

/-- `memcpy` of a 128 bit fingerprint into an id (object_id.h:444, 458, 472): on a
little endian machine the low half of the `uint128` becomes the first word. -/
def ofFingerprint (fp : BitVec 128) : ObjectId :=
  ofHighLow (fp.extractLsb' 0 64) (fp.extractLsb' 64 64)

end ObjectId

/-- `AllocationId` (object_id.h:282-359): an id whose offset bits are cleared. -/
structure AllocationId where
  /-- `allocation_id_` -/
  raw : ObjectId
deriving DecidableEq, Repr

namespace AllocationId

/-- `AllocationId::AllocationId(ObjectId)` (object_id.h:288-293). -/
def ofObject (o : ObjectId) : AllocationId :=
  ⟨{ o with id := (o.id >>> o.offsetBits.toNat) <<< o.offsetBits.toNat }⟩

/-- `AllocationId::IsSmall` (object_id.h:297). -/
def isSmall (a : AllocationId) : Bool := a.raw.isSmallAlloc

/-- `AllocationId::Capacity` (object_id.h:317). -/
def capacity (a : AllocationId) : BitVec 64 := 1#64 <<< a.raw.offsetBits.toNat

/-- `AllocationId::Contains` (object_id.h:320-324). -/
def contains (a : AllocationId) (o : ObjectId) : Bool :=
  a.raw.high64 == o.high64 &&
    ((o.low64 ^^^ a.raw.low64) >>> a.raw.offsetBits.toNat) == 0

/-- `AllocationId::ObjectByOffset` (object_id.h:327-332). The `DCHECK` is not
modelled; theorems about it require `offset < capacity`. -/
def objectByOffset (a : AllocationId) (off : BitVec 64) : ObjectId :=
  { a.raw with id := a.raw.id ||| off }

/-- `operator<=>` (object_id.h:334-335), the "less" of it. -/
def lt (a b : AllocationId) : Bool := a.raw.lt b.raw

end AllocationId

/-- `absl::countl_zero` on 64 bits. -/
def countlZero (x : BitVec 64) : Nat := if x = 0 then 64 else 63 - Nat.log2 x.toNat

/-- The number of offset bits for `size` elements, as it is stored in the 6 bit
field: `64 - absl::countl_zero(size - 1)` (object_id.cc:67, object_id.h:476). -/
def offsetBitsFor (size : BitVec 64) : BitVec 6 := BitVec.ofNat 6 (64 - countlZero (size - 1))

/-! ## Functions that make ids from other ids or fingerprints -/

/-- `CreateUuidWithMainObject<uuid_flag>` (object_id.h:438-452). -/
def createUuidWithMainObject (flag : BitVec 6) (main : ObjectId) (fp : BitVec 128) : ObjectId :=
  let id := ObjectId.ofFingerprint fp
  let id := { id with metadata := flag }
  let id := { id with offsetBits := main.offsetBits }
  let mask := (1#64 <<< id.offsetBits.toNat) - 1#64
  { id with id := id.id ^^^ ((main.id ^^^ id.id) &&& mask) }

/-- `CreateUuidObjectWithMetadata` (object_id.h:454-463). -/
def createUuidObjectWithMetadata (fp : BitVec 128) (flag : BitVec 6) : ObjectId :=
  let id := ObjectId.ofFingerprint fp
  { id with metadata := flag, offsetBits := 0 }

/-- `AllocateUuids` (object_id.h:469-486). -/
def allocateUuids (fp : BitVec 128) (size : BitVec 64) : AllocationId :=
  let id := ObjectId.ofFingerprint fp
  let id := { id with metadata := kUuidFlag }
  let id := { id with offsetBits := offsetBitsFor size }
  let id := { id with id := id.id ^^^ (id.offset <<< id.offsetBits.toNat) }
  AllocationId.ofObject id

/-- `UuidType` (uuid_object.h:30-36). -/
inductive UuidType where
  | default
  | list
  | dict
deriving DecidableEq, Repr

/-- The flags that `CreateUuidObject` chooses (uuid_object.cc:92-104). -/
def uuidFlags : UuidType → BitVec 6
  | .list => kUuidFlag ||| kListFlag
  | .dict => kUuidFlag ||| kDictFlag
  | .default => kUuidFlag

/-- `CreateUuidObject` (uuid_object.cc:92-105). -/
def createUuidObject (fp : BitVec 128) (type : UuidType) : ObjectId :=
  createUuidObjectWithMetadata fp (uuidFlags type)

/-- `CreateUuidExplicitSchema` (object_id.h:491-493). -/
def createUuidExplicitSchema (fp : BitVec 128) : ObjectId :=
  createUuidObjectWithMetadata fp kUuidExplicitSchemaFlag

/-- `CreateNoFollowWithMainObject` (object_id.h:495-500). -/
def createNoFollowWithMainObject (main : ObjectId) : ObjectId :=
  { main with metadata := main.metadata ||| kNoFollowSchemaFlag }

/-- `CreateUnspecifiedObject` (object_id.h:504-507). -/
def createUnspecifiedObject : ObjectId := createUuidObjectWithMetadata 0 kUnspecifiedFlag

/-- `GetOriginalFromNoFollow` (object_id.h:509-519). -/
def getOriginalFromNoFollow (o : ObjectId) : ObjectId :=
  { o with metadata := o.metadata &&& ~~~(kNoFollowSchemaFlag &&& ~~~kStartSchemaFlag) }

/-! ## The allocators -/

/-- The `thread_local` variables of one thread (object_id.cc:106-110, 155-156). -/
structure Thread where
  /-- `thread_id_` of `AllocateSingleObject`; `none` until the thread's first call
  initialises it (cc:155). -/
  singleThreadId : Option (BitVec 64 × BitVec 64) := none
  /-- `allocation_id_` (cc:156) -/
  singleAllocationId : BitVec 64 := 0
  /-- `thread_id_per_offset_` (cc:106-107) -/
  threadIdPerOffset : Nat → BitVec 64 × BitVec 64 := fun _ => (0, 0)
  /-- `allocation_id_per_offset_` (cc:109-110) -/
  allocationIdPerOffset : Nat → BitVec 64 := fun _ => 0

/-- The static variables of the process and those of its threads. -/
structure Process where
  /-- `PseudoRandomEpochId()` -/
  epoch : BitVec 64
  /-- `global_thread_id_` (cc:143) -/
  globalThreadId : BitVec 64 := 0
  /-- `global_thread_id_per_offset_` (cc:76-77) -/
  globalThreadIdPerOffset : Nat → BitVec 64 := fun _ => 0
  /-- the threads -/
  threads : Nat → Thread := fun _ => {}

/-- `AllocatorId` (object_id.cc:39-42). -/
def allocatorId (epoch : BitVec 64) : BitVec 64 := epoch &&& ((1#64 <<< 52) - 1#64)

/-- The pair that `compute_thead_id_fn` makes of a thread number
(object_id.cc:97-103, 147-152). -/
def splitThreadId (id : BitVec 64) (idBitCount : Nat) : BitVec 64 × BitVec 64 :=
  (id >>> (64 - idBitCount), id <<< idBitCount)

/-- `kIdBitCount` (object_id.cc:141). -/
def kIdBitCount : Nat := 24
/-- `kMaxOffsetBits` (object_id.cc:71). -/
def kMaxOffsetBits : Nat := 40
/-- `local_allocation_bit_count` (object_id.cc:84-86). -/
def localAllocationBitCount (offsetBits : Nat) : Nat := (64 - offsetBits) / 4

/-- Replaces the variables of thread `t`. -/
def Process.setThread (p : Process) (t : Nat) (th : Thread) : Process :=
  { p with threads := fun u => if u = t then th else p.threads u }

/-- The initialisation of `thread_id_` on a thread's first call (object_id.cc:155
with 144-153): the thread's pair, and the global counter afterwards. -/
def initThreadId (th : Thread) (global : BitVec 64) : (BitVec 64 × BitVec 64) × BitVec 64 :=
  match th.singleThreadId with
  | some tid => (tid, global)
  | none => (splitThreadId global kIdBitCount, global + 1)

/-- Drawing a new thread number when the local count is 0 (object_id.cc:112-116 with
88-104): the thread's pair for allocations with `b` offset bits, and the global
counter afterwards. -/
def initThreadIdPerOffset (th : Thread) (b : Nat) (global : BitVec 64) :
    (BitVec 64 × BitVec 64) × BitVec 64 :=
  if th.allocationIdPerOffset b = 0 then
    (splitThreadId global (localAllocationBitCount b + b), global + 1)
  else (th.threadIdPerOffset b, global)

/-- `AllocateSingleObject` (object_id.cc:134-171) called by thread `t`. The
`fetch_add`s are the only accesses to shared variables and a call that does two
of them (first use and wrap around) cannot occur, so a call is one step. -/
def allocateSingleObject (p : Process) (t : Nat) : Process × ObjectId :=
  let th := p.threads t
  let (tid, global) := initThreadId th p.globalThreadId
  let result : ObjectId :=
    { allocatorId := (allocatorId p.epoch + tid.1).setWidth 52,
      offsetBits := 0, metadata := 0,
      id := th.singleAllocationId ||| tid.2 }
  let next := th.singleAllocationId + 1
  if next = 1#64 <<< kIdBitCount then
    (({ p with globalThreadId := global + 1 } : Process).setThread t
      { th with singleThreadId := some (splitThreadId global kIdBitCount),
                singleAllocationId := 0 }, result)
  else
    (({ p with globalThreadId := global } : Process).setThread t
      { th with singleThreadId := some tid, singleAllocationId := next }, result)

/-- `Allocate` (object_id.cc:59-132) called by thread `t`; `none` is the failing
`CHECK_LE` (cc:72), which terminates the process. -/
def allocate (p : Process) (t : Nat) (size : BitVec 64) : Option (Process × AllocationId) :=
  if size.toNat ≤ 1 then
    let (p', o) := allocateSingleObject p t
    some (p', AllocationId.ofObject o)
  else
    let offsetBits := offsetBitsFor size
    let b := offsetBits.toNat
    if b ≤ kMaxOffsetBits then
      let th := p.threads t
      let allocationId := th.allocationIdPerOffset b
      let (tid, global) := initThreadIdPerOffset th b (p.globalThreadIdPerOffset b)
      let result : ObjectId :=
        { allocatorId := ((allocatorId p.epoch).setWidth 52) + tid.1.setWidth 52,
          offsetBits := offsetBits, metadata := 0,
          id := (allocationId <<< b) ||| tid.2 }
      let next := (allocationId + 1) &&& ((1#64 <<< localAllocationBitCount b) - 1#64)
      let th' := { th with
        threadIdPerOffset := fun c => if c = b then tid else th.threadIdPerOffset c,
        allocationIdPerOffset := fun c => if c = b then next else th.allocationIdPerOffset c }
      some (({ p with globalThreadIdPerOffset := fun c =>
                if c = b then global else p.globalThreadIdPerOffset c } : Process).setThread t th',
        AllocationId.ofObject result)
    else none

/-- The calls of the allocation interface (object_id.h:361-419). -/
inductive Call where
  /-- `Allocate(size)` -/
  | objects (size : BitVec 64)
  /-- `AllocateLists(size)` -/
  | lists (size : BitVec 64)
  /-- `AllocateDicts(size)` -/
  | dicts (size : BitVec 64)
  /-- `AllocateExplicitSchemas(size)` -/
  | schemas (size : BitVec 64)
  /-- `AllocateSingleObject()` -/
  | object
  /-- `AllocateSingleList()` -/
  | list
  /-- `AllocateSingleDict()` -/
  | dict
  /-- `AllocateExplicitSchema()` -/
  | schema
  /-- `NewAllocationIdLike(alloc)` -/
  | like (alloc : AllocationId)

/-- `res.metadata_ |= flag`. -/
def orMetadata (flag : BitVec 6) (o : ObjectId) : ObjectId :=
  { o with metadata := o.metadata ||| flag }

/-- `Allocate(size)` and then `res.allocation_id_.metadata_ |= flag`
(object_id.h:375-379, 389-393, 403-407). -/
def allocateWithFlag (p : Process) (t : Nat) (size : BitVec 64) (flag : BitVec 6) :
    Option (Process × AllocationId) :=
  match allocate p t size with
  | none => none
  | some (p', a) => some (p', ⟨orMetadata flag a.raw⟩)

/-- `AllocateSingleObject()` and then `res.metadata_ |= flag`
(object_id.h:368-372, 382-386, 396-400). -/
def allocateSingleWithFlag (p : Process) (t : Nat) (flag : BitVec 6) : Process × ObjectId :=
  let (p', o) := allocateSingleObject p t
  (p', orMetadata flag o)

/-- `NewAllocationIdLike` (object_id.h:413-419). -/
def newAllocationIdLike (p : Process) (t : Nat) (alloc : AllocationId) :
    Option (Process × AllocationId) :=
  match allocate p t alloc.capacity with
  | none => none
  | some (p', a) => some (p', ⟨{ a.raw with metadata := alloc.raw.metadata &&& ~~~kUuidFlag }⟩)

/-- A single id as its own allocation (to treat all calls alike). -/
def asAllocation (r : Process × ObjectId) : Option (Process × AllocationId) :=
  some (r.1, AllocationId.ofObject r.2)

/-- One call by thread `t`. -/
def call (p : Process) (t : Nat) : Call → Option (Process × AllocationId)
  | .objects size => allocate p t size
  | .lists size => allocateWithFlag p t size kListFlag
  | .dicts size => allocateWithFlag p t size kDictFlag
  | .schemas size => allocateWithFlag p t size kExplicitSchemaFlag
  | .object => asAllocation (allocateSingleObject p t)
  | .list => asAllocation (allocateSingleWithFlag p t kListFlag)
  | .dict => asAllocation (allocateSingleWithFlag p t kDictFlag)
  | .schema => asAllocation (allocateSingleWithFlag p t kExplicitSchemaFlag)
  | .like alloc => newAllocationIdLike p t alloc

/-- What can happen in a process: a thread makes a call, or the pseudo random
generator is reseeded (pseudo_random.cc:59-66). -/
inductive Event where
  /-- thread `t` makes the call -/
  | call (t : Nat) (c : Call)
  /-- `ReseedPseudoRandom` stores a new epoch id -/
  | reseed (epoch : BitVec 64)

/-- Runs a schedule; gives the allocations that were returned, in order, or
`none` if the process was terminated by a failing `CHECK`. -/
def run (p : Process) : List Event → Option (List AllocationId)
  | [] => some []
  | .reseed e :: rest => run { p with epoch := e } rest
  | .call t c :: rest =>
    match call p t c with
    | none => none
    | some (p', a) =>
      match run p' rest with
      | none => none
      | some as => some (a :: as)

end Verif.ObjectId
