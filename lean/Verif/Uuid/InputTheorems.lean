import Verif.Uuid.Lemmas

/-! What is fed to the hash function: C47 (data items) and the part of C35 about different
fields. -/

namespace Verif.Uuid

open Verif.ObjectId

/-! ### Specification -/

/-- A "hash function" that remembers the byte strings it was fed with. -/
def record : HashFn (List Bytes) where
  init := []
  mix := fun data s => s ++ [data]
  finish := fun _ => 0

/-- A hash function run over a list of byte strings. -/
def HashFn.over {S : Type} (H : HashFn S) (inputs : List Bytes) : S :=
  inputs.foldl (fun s data => H.mix data s) H.init

/-- What is fed to the hash function for a data item. -/
def itemInputs (x : Item) : List Bytes := combineItem record (newHasher record dataItemSalt) x

/-- What is fed to the hash function for named fingerprints. -/
def kwargsInputs (seed : Bytes) (fps : List (Bytes × BitVec 128)) : List Bytes :=
  hashKwargs record seed fps

/-- What is fed to the hash function for a list. -/
def listInputs (seed : Bytes) (items : List (BitVec 128)) (fieldsFp : BitVec 128) : List Bytes :=
  hashList record seed items fieldsFp

/-- What is fed to the hash function for a dict. -/
def dictInputs (seed : Bytes) (items : List (BitVec 128 × BitVec 128)) (fieldsFp : BitVec 128) :
    List Bytes :=
  hashDict record seed items fieldsFp

/-- What is fed to the hash function for an aggregation. -/
def aggInputs (fps : List (BitVec 128)) : List Bytes := hashAgg record fps

/-- What is fed to the hash function for a main object. -/
def mainInputs (a : AllocationId) (salt : Bytes) : List Bytes :=
  combineAllocationId record a (combineString record salt (newHasher record mainSalt))

/-- What is fed to the hash function for an allocation of uuids. -/
def sizeInputs (seed : Bytes) (size : BitVec 64) : List Bytes :=
  combineArith record nameInt64 (leBytes 8 size.toNat)
    (combineString record seed (newHasher record sizeSalt))

/-- An expression whose string is that of a missing value, a present mask or a dtype. No
serialized expression is so short. -/
def Item.Ambiguous : Item → Prop
  | .expr e => e = missingTag ∨ e = unitTag ∨ ∃ n : Fin 14, e = dtypeTag ++ decimal n.val
  | _ => False

/-! ### Lemmas -/

section
variable {S : Type} (H : HashFn S)

theorem over_mix (l : List Bytes) (data : Bytes) :
    H.mix data (H.over l) = H.over (record.mix data l) := by
  unfold HashFn.over record
  simp

theorem over_arith (n v : Bytes) (l : List Bytes) :
    combineArith H n v (H.over l) = H.over (combineArith record n v l) := by
  unfold combineArith combineRawBytes
  rw [over_mix, over_mix]

theorem over_string (str : Bytes) (l : List Bytes) :
    combineString H str (H.over l) = H.over (combineString record str l) := by
  unfold combineString combineSize combineRawBytes
  rw [over_arith, over_mix]

theorem over_size (n : Nat) (l : List Bytes) :
    combineSize H n (H.over l) = H.over (combineSize record n l) := over_arith H _ _ _

theorem over_fingerprint (fp : BitVec 128) (l : List Bytes) :
    combineFingerprint H fp (H.over l) = H.over (combineFingerprint record fp l) :=
  over_mix H _ _

theorem over_object (o : ObjectId) (l : List Bytes) :
    combineObjectId H o (H.over l) = H.over (combineObjectId record o l) :=
  over_mix H _ _

theorem over_alloc (a : AllocationId) (l : List Bytes) :
    combineAllocationId H a (H.over l) = H.over (combineAllocationId record a l) :=
  over_mix H _ _

theorem over_new (salt : Bytes) : newHasher H salt = H.over (newHasher record salt) :=
  over_string H salt []

theorem over_item (x : Item) (l : List Bytes) :
    combineItem H (H.over l) x = H.over (combineItem record l x) := by
  cases x <;> simp only [combineItem, over_string, over_object, over_arith]

theorem over_kwargs (seed : Bytes) (fps : List (Bytes × BitVec 128)) :
    hashKwargs H seed fps = H.over (hashKwargs record seed fps) := by
  unfold hashKwargs
  rw [over_new]
  generalize newHasher record (uuidSalt ++ seed) = l
  induction fps generalizing l with
  | nil => rfl
  | cons p fps ih => rw [List.foldl_cons, List.foldl_cons, over_string, over_fingerprint, ih]

theorem over_list (seed : Bytes) (items : List (BitVec 128)) (fp : BitVec 128) :
    hashList H seed items fp = H.over (hashList record seed items fp) := by
  unfold hashList
  rw [over_new, over_fingerprint, over_size]
  generalize combineSize record _ _ = l
  induction items generalizing l with
  | nil => rfl
  | cons p fps ih => rw [List.foldl_cons, List.foldl_cons, over_fingerprint, ih]

theorem over_dict (seed : Bytes) (items : List (BitVec 128 × BitVec 128)) (fp : BitVec 128) :
    hashDict H seed items fp = H.over (hashDict record seed items fp) := by
  unfold hashDict
  rw [over_new, over_fingerprint, over_size]
  generalize combineSize record _ _ = l
  generalize sortBy keyLt items = items
  induction items generalizing l with
  | nil => rfl
  | cons p fps ih =>
    rw [List.foldl_cons, List.foldl_cons, over_fingerprint, over_fingerprint, ih]

theorem over_agg (fps : List (BitVec 128)) : hashAgg H fps = H.over (hashAgg record fps) := by
  unfold hashAgg
  rw [over_new]
  generalize newHasher record uuidSalt = l
  generalize 0 = n
  induction fps generalizing l n with
  | nil => rfl
  | cons p fps ih =>
    rw [List.foldl_cons, List.foldl_cons]
    simp only
    rw [over_fingerprint, over_arith, ih]

end

theorem record_string (str : Bytes) (l : List Bytes) :
    combineString record str l = l ++ [nameSizeT, leBytes 8 str.length, str] := by
  simp [combineString, combineSize, combineArith, combineRawBytes, record]

theorem record_arith (n v : Bytes) (l : List Bytes) :
    combineArith record n v l = l ++ [n, v] := by
  simp [combineArith, combineRawBytes, record]

theorem record_fingerprint (fp : BitVec 128) (l : List Bytes) :
    combineFingerprint record fp l = l ++ [leBytes 16 fp.toNat] := rfl

theorem record_object (o : ObjectId) (l : List Bytes) :
    combineObjectId record o l = l ++ [idBytes o] := rfl

theorem record_new (salt : Bytes) :
    newHasher record salt = [nameSizeT, leBytes 8 salt.length, salt] := record_string salt []

/-- The chunks of a list of fields. -/
def fieldChunks (fps : List (Bytes × BitVec 128)) : List Bytes :=
  fps.flatMap (fun p => [nameSizeT, leBytes 8 p.1.length, p.1, leBytes 16 p.2.toNat])

theorem record_kwargs (seed : Bytes) (fps : List (Bytes × BitVec 128)) :
    kwargsInputs seed fps =
      [nameSizeT, leBytes 8 (uuidSalt ++ seed).length, uuidSalt ++ seed] ++ fieldChunks fps := by
  unfold kwargsInputs hashKwargs
  rw [record_new]
  generalize [nameSizeT, leBytes 8 (uuidSalt ++ seed).length, uuidSalt ++ seed] = l
  induction fps generalizing l with
  | nil => simp [fieldChunks]
  | cons p fps ih =>
    rw [List.foldl_cons, ih, record_string, record_fingerprint]
    simp [fieldChunks]

theorem fieldChunks_inj {a b : List (Bytes × BitVec 128)} (h : fieldChunks a = fieldChunks b) :
    a = b := by
  induction a generalizing b with
  | nil =>
    cases b with
    | nil => rfl
    | cons y b => simp [fieldChunks] at h
  | cons x a ih =>
    cases b with
    | nil => simp [fieldChunks] at h
    | cons y b =>
      simp only [fieldChunks, List.flatMap_cons, List.cons_append, List.nil_append,
        List.cons.injEq] at h
      obtain ⟨_, _, h1, h2, h3⟩ := h
      rw [ih h3]
      congr 1
      exact Prod.ext h1 (fpBytes_inj h2)

/-- The chunks of a list of items. -/
def itemChunks (fps : List (BitVec 128)) : List Bytes := fps.map (fun x => leBytes 16 x.toNat)

theorem record_list (seed : Bytes) (items : List (BitVec 128)) (fp : BitVec 128) :
    listInputs seed items fp =
      [nameSizeT, leBytes 8 (listSalt ++ seed).length, listSalt ++ seed, leBytes 16 fp.toNat,
        nameSizeT, leBytes 8 items.length] ++ itemChunks items := by
  have key : ∀ (items : List (BitVec 128)) (l : List Bytes),
      items.foldl (fun s x => combineFingerprint record x s) l = l ++ itemChunks items := by
    intro items
    induction items with
    | nil => intro l; simp [itemChunks]
    | cons p fps ih =>
      intro l
      rw [List.foldl_cons, ih, record_fingerprint]
      simp [itemChunks]
  unfold listInputs hashList
  rw [key, record_new, record_fingerprint]
  unfold combineSize
  rw [record_arith]
  simp

theorem itemChunks_inj {a b : List (BitVec 128)} (h : itemChunks a = itemChunks b) : a = b := by
  induction a generalizing b with
  | nil =>
    cases b with
    | nil => rfl
    | cons y b => simp [itemChunks] at h
  | cons x a ih =>
    cases b with
    | nil => simp [itemChunks] at h
    | cons y b =>
      simp only [itemChunks, List.map_cons, List.cons.injEq] at h
      rw [ih h.2, fpBytes_inj h.1]

/-- The chunks of a list of dict items. -/
def pairChunks (fps : List (BitVec 128 × BitVec 128)) : List Bytes :=
  fps.flatMap (fun x => [leBytes 16 x.1.toNat, leBytes 16 x.2.toNat])

theorem record_dict (seed : Bytes) (items : List (BitVec 128 × BitVec 128)) (fp : BitVec 128) :
    dictInputs seed items fp =
      [nameSizeT, leBytes 8 (dictSalt ++ seed).length, dictSalt ++ seed, leBytes 16 fp.toNat,
        nameSizeT, leBytes 8 items.length] ++ pairChunks (sortBy keyLt items) := by
  have key : ∀ (items : List (BitVec 128 × BitVec 128)) (l : List Bytes),
      items.foldl (fun s x => combineFingerprint record x.2 (combineFingerprint record x.1 s)) l =
        l ++ pairChunks items := by
    intro items
    induction items with
    | nil => intro l; simp [pairChunks]
    | cons p fps ih =>
      intro l
      rw [List.foldl_cons, ih, record_fingerprint, record_fingerprint]
      simp [pairChunks]
  unfold dictInputs hashDict
  rw [key, record_new, record_fingerprint]
  unfold combineSize
  rw [record_arith]
  simp

theorem pairChunks_inj {a b : List (BitVec 128 × BitVec 128)} (h : pairChunks a = pairChunks b) :
    a = b := by
  induction a generalizing b with
  | nil =>
    cases b with
    | nil => rfl
    | cons y b => simp [pairChunks] at h
  | cons x a ih =>
    cases b with
    | nil => simp [pairChunks] at h
    | cons y b =>
      simp only [pairChunks, List.flatMap_cons, List.cons_append, List.nil_append,
        List.cons.injEq] at h
      obtain ⟨h1, h2, h3⟩ := h
      rw [ih h3]
      congr 1
      exact Prod.ext (fpBytes_inj h1) (fpBytes_inj h2)

/-- The chunks of an aggregation, the positions counted from `n`. -/
def aggChunks : Nat → List (BitVec 128) → List Bytes
  | _, [] => []
  | n, x :: xs => leBytes 16 x.toNat :: nameInt64 :: leBytes 8 n :: aggChunks (n + 1) xs

theorem record_agg (fps : List (BitVec 128)) :
    aggInputs fps = [nameSizeT, leBytes 8 uuidSalt.length, uuidSalt] ++ aggChunks 0 fps := by
  unfold aggInputs hashAgg
  rw [record_new]
  generalize [nameSizeT, leBytes 8 uuidSalt.length, uuidSalt] = l
  generalize 0 = n
  induction fps generalizing l n with
  | nil => simp [aggChunks]
  | cons p fps ih =>
    rw [List.foldl_cons]
    simp only
    rw [ih, record_fingerprint, record_arith]
    simp [aggChunks]

theorem aggChunks_inj {n : Nat} {a b : List (BitVec 128)} (h : aggChunks n a = aggChunks n b) :
    a = b := by
  induction a generalizing b n with
  | nil =>
    cases b with
    | nil => rfl
    | cons y b => simp [aggChunks] at h
  | cons x a ih =>
    cases b with
    | nil => simp [aggChunks] at h
    | cons y b =>
      simp only [aggChunks, List.cons.injEq, true_and] at h
      rw [ih h.2, fpBytes_inj h.1]

theorem record_main (a : AllocationId) (salt : Bytes) :
    mainInputs a salt = [nameSizeT, leBytes 8 mainSalt.length, mainSalt, nameSizeT,
      leBytes 8 salt.length, salt, idBytes a.raw] := by
  unfold mainInputs
  rw [record_new, record_string]
  show _ ++ [idBytes a.raw] = _
  simp

theorem record_size (seed : Bytes) (size : BitVec 64) :
    sizeInputs seed size = [nameSizeT, leBytes 8 sizeSalt.length, sizeSalt, nameSizeT,
      leBytes 8 seed.length, seed, nameInt64, leBytes 8 size.toNat] := by
  unfold sizeInputs
  rw [record_new, record_string, record_arith]
  simp

/-! ### Theorems -/

/-- Everything that a uuid takes from a data item is the hash of its inputs. -/
theorem C47_fingerprint_is_hash_of_inputs {S : Type} (H : HashFn S) (x : Item) :
    stableFingerprint H x = H.finish (H.over (itemInputs x)) := by
  unfold stableFingerprint itemInputs
  rw [over_new, over_item]

/-- Different data items, of the same or of different types, give different inputs to the
hash function. -/
theorem C47_item_inputs_differ (x y : Item) (hx : ¬ x.Ambiguous) (hy : ¬ y.Ambiguous)
    (h : itemInputs x = itemInputs y) : x = y := by
  have hdec : ∀ m n : Fin 14, dtypeTag ++ decimal m.val = dtypeTag ++ decimal n.val → m = n := by
    decide
  have hmis : ∀ n : Fin 14, missingTag ≠ dtypeTag ++ decimal n.val := by decide
  have hunit : ∀ n : Fin 14, unitTag ≠ dtypeTag ++ decimal n.val := by decide
  unfold itemInputs at h
  rw [record_new] at h
  have hlen := congrArg List.length h
  cases x <;> cases y <;>
    simp only [combineItem, record_string, record_arith, record_object, List.length_append,
      List.length_cons, List.length_nil, Nat.reduceAdd, Nat.reduceEqDiff] at hlen <;>
    simp only [combineItem, record_string, record_arith, record_object,
      List.cons_append, List.nil_append, List.cons.injEq, and_true, true_and] at h
  all_goals first
    | rfl
    | exact absurd h.1 (by decide)
    | exact absurd h.2 (by decide)
    | (rw [idBytes_inj h])
    | (rw [BitVec.eq_of_toNat_eq (leBytes_inj (n := 4) (BitVec.isLt _) (BitVec.isLt _) h)])
    | (rw [BitVec.eq_of_toNat_eq (leBytes_inj (n := 8) (BitVec.isLt _) (BitVec.isLt _) h)])
    | (rw [hdec _ _ h.2])
    | exact absurd h.2 (hmis _)
    | exact absurd h.2.symm (hmis _)
    | exact absurd h.2 (hunit _)
    | exact absurd h.2.symm (hunit _)
    | exact absurd (Or.inl h.2) hx
    | exact absurd (Or.inl h.2.symm) hy
    | exact absurd (Or.inr (Or.inl h.2)) hx
    | exact absurd (Or.inr (Or.inl h.2.symm)) hy
    | (rw [h.2]; done)
    | exact absurd (Or.inr (Or.inr ⟨_, h.2⟩)) hx
    | exact absurd (Or.inr (Or.inr ⟨_, h.2.symm⟩)) hy
    | (rename_i a b; cases a <;> cases b <;> first | rfl | exact absurd h (by decide))

/-- The string of an expression could also be that of another item, so the restriction
above is needed. -/
theorem C47_ambiguous_expression : itemInputs (.expr missingTag) = itemInputs .missing ∧
    itemInputs (.expr unitTag) = itemInputs .unit := ⟨rfl, rfl⟩

/-- Example: the number 5 as INT32 and as INT64, the text "5" and the bytes "5". -/
example : itemInputs (.int32 5) ≠ itemInputs (.int64 5) ∧
    itemInputs (.text (chars ['5'])) ≠ itemInputs (.bytes (chars ['5'])) := by decide

/-- A uuid of fields is made of the hash of its inputs (and the type). -/
theorem C35_uuid_is_hash_of_inputs {S : Type} (H : HashFn S) (seed : Bytes)
    (fields : List (Bytes × Item)) (type : UuidType) :
    uuidFromFields H seed fields type =
        createUuidObject (H.finish (H.over (kwargsInputs seed (sortedFingerprints H fields)))) type ∧
      schemaUuid H seed fields =
        createUuidExplicitSchema (H.finish (H.over (kwargsInputs seed (sortedFingerprints H fields))))
      := by
  unfold uuidFromFields fingerprintFromFields schemaUuid kwargsInputs
  rw [over_kwargs]
  exact ⟨rfl, rfl⟩

/-- The inputs that two lists of fields give to the hash function are the same only if the
seeds are the same and the fields have the same names and fingerprints of values. -/
theorem C35_field_inputs_differ {S : Type} (H : HashFn S) (seed seed' : Bytes)
    (fields fields' : List (Bytes × Item))
    (h : kwargsInputs seed (sortedFingerprints H fields) =
      kwargsInputs seed' (sortedFingerprints H fields')) :
    seed = seed' ∧
      (fields.map (fun f => (f.1, stableFingerprint H f.2))).Perm
        (fields'.map (fun f => (f.1, stableFingerprint H f.2))) := by
  rw [record_kwargs, record_kwargs] at h
  simp only [List.cons_append, List.nil_append, List.cons.injEq, true_and] at h
  obtain ⟨_, h1, h2⟩ := h
  refine ⟨List.append_cancel_left h1, ?_⟩
  have h3 := fieldChunks_inj h2
  unfold sortedFingerprints at h3
  exact (sortBy_perm nameLt _).symm.trans (h3 ▸ sortBy_perm nameLt _)

/-- The same for lists: the order of the items counts. -/
theorem C35_list_inputs_differ (seed seed' : Bytes) (items items' : List (BitVec 128))
    (fp fp' : BitVec 128) (h : listInputs seed items fp = listInputs seed' items' fp') :
    seed = seed' ∧ items = items' ∧ fp = fp' := by
  rw [record_list, record_list] at h
  simp only [List.cons_append, List.nil_append, List.cons.injEq, true_and] at h
  obtain ⟨_, h1, h2, _, h3⟩ := h
  exact ⟨List.append_cancel_left h1, itemChunks_inj h3, fpBytes_inj h2⟩

/-- The same for dicts: the order of the items does not count. -/
theorem C35_dict_inputs_differ (seed seed' : Bytes) (items items' : List (BitVec 128 × BitVec 128))
    (fp fp' : BitVec 128) (h : dictInputs seed items fp = dictInputs seed' items' fp') :
    seed = seed' ∧ items.Perm items' ∧ fp = fp' := by
  rw [record_dict, record_dict] at h
  simp only [List.cons_append, List.nil_append, List.cons.injEq, true_and] at h
  obtain ⟨_, h1, h2, _, h3⟩ := h
  have h4 := pairChunks_inj h3
  exact ⟨List.append_cancel_left h1,
    (sortBy_perm keyLt _).symm.trans (h4 ▸ sortBy_perm keyLt _), fpBytes_inj h2⟩

/-- The same for aggregations over lists of present items. -/
theorem C35_agg_inputs_differ (fps fps' : List (BitVec 128)) (h : aggInputs fps = aggInputs fps') :
    fps = fps' := by
  rw [record_agg, record_agg] at h
  exact aggChunks_inj (List.append_cancel_left h)

/-- List, dict and aggregated uuids are made of the hashes of these inputs. -/
theorem C35_uuids_are_hashes {S : Type} (H : HashFn S) (seed : Bytes) (items : List Item)
    (pairs : List (Item × Item)) (fields : List (Bytes × Item)) :
    listUuid H seed items fields = createUuidObject (H.finish (H.over (listInputs seed
        (items.map (stableFingerprint H)) (fingerprintFromFields H seed fields)))) .list ∧
      dictUuid H seed pairs fields = createUuidObject (H.finish (H.over (dictInputs seed
        (pairs.map (fun p => (stableFingerprint H p.1, stableFingerprint H p.2)))
        (fingerprintFromFields H seed fields)))) .dict ∧
      aggUuid H items = createUuidObject (H.finish (H.over (aggInputs
        ((items.filter (fun x => x ≠ .missing)).map (stableFingerprint H))))) .default := by
  unfold listUuid dictUuid aggUuid listInputs dictInputs aggInputs
  rw [over_list, over_dict, over_agg]
  exact ⟨rfl, rfl, rfl⟩

/-- The inputs of the kinds of uuids are separate, whatever the seeds. -/
theorem C35_kinds_of_inputs_are_separate (seed seed' : Bytes) (fps : List (Bytes × BitVec 128))
    (items : List (BitVec 128)) (pairs : List (BitVec 128 × BitVec 128)) (fp fp' : BitVec 128)
    (size : BitVec 64) (x : Item) :
    kwargsInputs seed fps ≠ listInputs seed' items fp ∧
    kwargsInputs seed fps ≠ dictInputs seed' pairs fp ∧
    listInputs seed items fp ≠ dictInputs seed' pairs fp' ∧
    kwargsInputs seed fps ≠ sizeInputs seed' size ∧
    kwargsInputs seed fps ≠ itemInputs x := by
  refine ⟨?_, ?_, ?_, ?_, ?_⟩
  · rw [record_kwargs, record_list]
    intro h
    simp [uuidSalt, listSalt, chars] at h
  · rw [record_kwargs, record_dict]
    intro h
    simp [uuidSalt, dictSalt, chars] at h
  · rw [record_list, record_dict]
    intro h
    simp [listSalt, dictSalt, chars] at h
  · rw [record_kwargs, record_size]
    intro h
    have hl := congrArg List.length h
    have : (fieldChunks fps).length = 4 * fps.length := by
      clear h hl
      induction fps with
      | nil => rfl
      | cons p r ih =>
        simp only [fieldChunks, List.flatMap_cons, List.length_append, List.length_cons,
          List.length_nil] at ih ⊢
        omega
    simp [this] at hl
    omega
  · rw [record_kwargs]
    intro h
    unfold itemInputs at h
    rw [record_new] at h
    have : ∃ rest, combineItem record [nameSizeT, leBytes 8 dataItemSalt.length, dataItemSalt] x =
        nameSizeT :: leBytes 8 dataItemSalt.length :: dataItemSalt :: rest := by
      cases x <;>
        simp only [combineItem, record_string, record_arith, record_object, List.cons_append,
          List.nil_append] <;> exact ⟨_, rfl⟩
    obtain ⟨rest, hr⟩ := this
    rw [hr] at h
    simp [uuidSalt, dataItemSalt, chars] at h

/-- The inputs for a main object are those of a single field exactly if the seed, the name
and the fingerprint happen to be those that follow. -/
theorem C35_main_object_inputs_not_separate (seed : Bytes) (fps : List (Bytes × BitVec 128))
    (a : AllocationId) (salt : Bytes) :
    kwargsInputs seed fps = mainInputs a salt ↔
      uuidSalt ++ seed = mainSalt ∧
        ∃ fp : BitVec 128, fps = [(salt, fp)] ∧ leBytes 16 fp.toNat = idBytes a.raw := by
  rw [record_kwargs, record_main]
  constructor
  · intro h
    simp only [List.cons_append, List.nil_append, List.cons.injEq, true_and] at h
    obtain ⟨_, h1, h2⟩ := h
    refine ⟨h1, ?_⟩
    match fps with
    | [] => simp [fieldChunks] at h2
    | [p] =>
      simp [fieldChunks] at h2
      exact ⟨p.2, by rw [← h2.2.1], h2.2.2⟩
    | p :: q :: r => simp [fieldChunks] at h2
  · rintro ⟨h1, fp, rfl, h2⟩
    simp [fieldChunks, h1, h2]

end Verif.Uuid
