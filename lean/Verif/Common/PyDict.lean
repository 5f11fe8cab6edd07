/-
Insertion ordered dictionaries (python `dict`), as association lists.

Models the behaviour of the python language that the modelled code relies on
("dicts preserve insertion order"): `pop` removes the binding of a key,
assignment overwrites in place or appends at the end.
-/
namespace Verif

abbrev PyDict (K V : Type) := List (K × V)

namespace PyDict

variable {K V : Type} [DecidableEq K]

/-- python `d.get(k)`. -/
def get? (d : PyDict K V) (k : K) : Option V :=
  match d with
  | [] => none
  | (k', v) :: rest => if k' = k then some v else get? rest k

/-- python `k in d`. -/
def contains (d : PyDict K V) (k : K) : Bool := (get? d k).isSome

/-- python `d.pop(k)` / `del d[k]` (the remaining dict). -/
def erase (d : PyDict K V) (k : K) : PyDict K V :=
  match d with
  | [] => []
  | (k', v) :: rest => if k' = k then rest else (k', v) :: erase rest k

/-- python `d[k] = v`. -/
def set (d : PyDict K V) (k : K) (v : V) : PyDict K V :=
  match d with
  | [] => [(k, v)]
  | (k', v') :: rest => if k' = k then (k', v) :: rest else (k', v') :: set rest k v

/-- The keys, in insertion order. -/
def keys (d : PyDict K V) : List K := d.map Prod.fst

/-! ### Basic facts -/

theorem get?_none_iff (d : PyDict K V) (k : K) : get? d k = none ↔ k ∉ keys d := by
  induction d with
  | nil => simp [get?, keys]
  | cons p rest ih =>
    obtain ⟨k', v⟩ := p
    by_cases h : k' = k
    · simp [get?, keys, h]
    · have h' : ¬ k = k' := fun e => h e.symm
      simpa [get?, keys, h, h'] using ih

theorem get?_isSome_iff (d : PyDict K V) (k : K) : (get? d k).isSome ↔ k ∈ keys d := by
  have := get?_none_iff d k
  cases h : get? d k <;> simp_all

theorem mem_of_get? {d : PyDict K V} {k : K} {v : V} (h : get? d k = some v) : (k, v) ∈ d := by
  induction d with
  | nil => simp [get?] at h
  | cons p rest ih =>
    obtain ⟨k', v'⟩ := p
    by_cases e : k' = k
    · simp [get?, e] at h; simp [e, h]
    · simp [get?, e] at h; exact List.mem_cons_of_mem _ (ih h)

theorem get?_of_mem {d : PyDict K V} (nd : (keys d).Nodup) {k : K} {v : V} (h : (k, v) ∈ d) :
    get? d k = some v := by
  induction d with
  | nil => simp at h
  | cons p rest ih =>
    obtain ⟨k', v'⟩ := p
    simp only [keys, List.map_cons, List.nodup_cons] at nd
    rcases List.mem_cons.1 h with h | h
    · cases h; simp [get?]
    · have : k' ≠ k := by
        rintro rfl
        exact nd.1 (List.mem_map.2 ⟨(k', v), h, rfl⟩)
      simp [get?, this, ih nd.2 h]

theorem get?_erase_self {d : PyDict K V} (nd : (keys d).Nodup) (k : K) :
    get? (erase d k) k = none := by
  induction d with
  | nil => simp [erase, get?]
  | cons p rest ih =>
    obtain ⟨k', v'⟩ := p
    simp only [keys, List.map_cons, List.nodup_cons] at nd
    by_cases e : k' = k
    · subst e
      have := (get?_none_iff rest k').2 (by simpa [keys] using nd.1)
      simpa [erase] using this
    · simp [erase, e, get?, ih nd.2]

theorem get?_erase_ne (d : PyDict K V) {k k' : K} (h : k' ≠ k) :
    get? (erase d k) k' = get? d k' := by
  induction d with
  | nil => simp [erase]
  | cons p rest ih =>
    obtain ⟨q, v⟩ := p
    by_cases e : q = k
    · subst e
      simp [erase, get?, Ne.symm h]
    · by_cases e' : q = k'
      · subst e'; simp [erase, e, get?]
      · simp [erase, e, get?, e', ih]

theorem keys_erase_sublist (d : PyDict K V) (k : K) : (keys (erase d k)).Sublist (keys d) := by
  induction d with
  | nil => simp [erase, keys]
  | cons p rest ih =>
    obtain ⟨q, v⟩ := p
    by_cases e : q = k
    · simp [erase, keys, e]
    · simpa [erase, keys, e] using ih

theorem erase_sublist (d : PyDict K V) (k : K) : (erase d k).Sublist d := by
  induction d with
  | nil => simp [erase]
  | cons p rest ih =>
    obtain ⟨q, v⟩ := p
    by_cases e : q = k
    · simp [erase, e]
    · simpa [erase, e] using ih

theorem nodup_erase {d : PyDict K V} (nd : (keys d).Nodup) (k : K) : (keys (erase d k)).Nodup :=
  nd.sublist (keys_erase_sublist d k)

theorem not_mem_keys_erase {d : PyDict K V} (nd : (keys d).Nodup) (k : K) :
    k ∉ keys (erase d k) := (get?_none_iff _ _).1 (get?_erase_self nd k)

theorem erase_of_not_mem {d : PyDict K V} {k : K} (h : k ∉ keys d) : erase d k = d := by
  induction d with
  | nil => rfl
  | cons p rest ih =>
    obtain ⟨q, v⟩ := p
    simp only [keys, List.map_cons, List.mem_cons, not_or] at h
    simp [erase, Ne.symm h.1, ih h.2]

theorem set_of_not_mem {d : PyDict K V} {k : K} (h : k ∉ keys d) (v : V) :
    set d k v = d ++ [(k, v)] := by
  induction d with
  | nil => rfl
  | cons p rest ih =>
    obtain ⟨q, w⟩ := p
    simp only [keys, List.map_cons, List.mem_cons, not_or] at h
    simp [set, Ne.symm h.1, ih h.2]

theorem get?_set_self (d : PyDict K V) (k : K) (v : V) : get? (set d k v) k = some v := by
  induction d with
  | nil => simp [set, get?]
  | cons p rest ih =>
    obtain ⟨q, w⟩ := p
    by_cases e : q = k <;> simp [set, get?, e, ih]

theorem get?_set_ne (d : PyDict K V) {k k' : K} (h : k' ≠ k) (v : V) :
    get? (set d k v) k' = get? d k' := by
  induction d with
  | nil => simp [set, get?, Ne.symm h]
  | cons p rest ih =>
    obtain ⟨q, w⟩ := p
    by_cases e : q = k
    · subst e; simp [set, get?, Ne.symm h]
    · by_cases e' : q = k'
      · subst e'; simp [set, e, get?]
      · simp [set, e, get?, e', ih]

theorem keys_set (d : PyDict K V) (k : K) (v : V) :
    keys (set d k v) = if k ∈ keys d then keys d else keys d ++ [k] := by
  induction d with
  | nil => simp [set, keys]
  | cons p rest ih =>
    obtain ⟨q, w⟩ := p
    by_cases e : q = k
    · simp [set, e, keys]
    · have e' : ¬ k = q := fun h => e h.symm
      simp only [keys] at ih
      simp only [set, e, if_false, keys, List.map_cons, ih, List.mem_cons, e', false_or]
      split <;> simp_all

theorem nodup_set {d : PyDict K V} (nd : (keys d).Nodup) (k : K) (v : V) :
    (keys (set d k v)).Nodup := by
  rw [keys_set]
  split
  · exact nd
  · rename_i h
    rw [List.nodup_append]
    refine ⟨nd, by simp, ?_⟩
    intro a ha b hb
    simp at hb; subst hb
    rintro rfl; exact h ha

end PyDict
end Verif
