import Verif.Traverse.Search

/-! The search ends if finitely many items can be reached. -/

namespace Verif.Traverse

open Verif.ObjectId
open Verif.Uuid

/-- The number of pairs of a list that are not used yet. -/
def unused (used : List Pair) : List Pair → Nat
  | [] => 0
  | p :: l => (if p ∈ used then 0 else 1) + unused used l

theorem unused_le {used used' : List Pair} (h : ∀ p ∈ used, p ∈ used') :
    ∀ l, unused used' l ≤ unused used l
  | [] => Nat.le_refl _
  | p :: l => by
    have := unused_le h l
    unfold unused
    by_cases h1 : p ∈ used
    · rw [if_pos h1, if_pos (h p h1)]; omega
    · rw [if_neg h1]; split <;> omega

theorem unused_lt {used : List Pair} {p : Pair} (hp : p ∉ used) :
    ∀ {l : List Pair}, p ∈ l → unused (p :: used) l < unused used l
  | [], h => by cases h
  | q :: l, h => by
    have hle := unused_le (used := used) (used' := p :: used)
      (fun _ h => List.mem_cons_of_mem _ h) l
    unfold unused
    by_cases hq : q = p
    · subst hq
      rw [if_pos List.mem_cons_self, if_neg hp]
      omega
    · have := unused_lt hp (List.mem_of_ne_of_mem (Ne.symm hq) h)
      by_cases h1 : q ∈ used
      · rw [if_pos h1, if_pos (List.mem_cons_of_mem _ h1)]; omega
      · rw [if_neg h1, if_neg (by simp [hq, h1])]; omega

section
variable {V : Type} {w : Visitor V} {want : Pair → Option Key → Pair → Bool}

theorem previsit_used {d d' : Dfs V} {src p : Pair} {key : Option Key}
    (h : previsit w d src key p = .ok d') : d'.used = d.used := by
  unfold previsit at h
  split at h
  · cases h
  split at h
  · cases h
  split at h <;> cases h <;> rfl

theorem previsitAll_used {src : Pair} : ∀ {cs : List (Key × Pair)} {d d' : Dfs V},
    previsitAll w src d cs = .ok d' → d'.used = d.used
  | [], d, d', h => by cases h; rfl
  | (k, p) :: cs, d, d', h => by
    unfold previsitAll at h
    split at h
    · cases h
    rename_i d1 h1
    rw [previsitAll_used h, previsit_used h1]

theorem expand_used {b : Bag} {x e : Item} {d d' : Dfs V}
    (h : expand w b d x e = .ok d') : d'.used = d.used := by
  unfold expand at h
  split at h
  · cases h
  rename_i d1 h1
  split at h
  · cases h
  split at h
  · cases h
  rw [previsitAll_used h]
  split at h1
  · exact previsit_used h1
  · cases h1; rfl

/-- A step drops an item from the stack or looks at a new one. -/
theorem step_used {b : Bag} {d d' : Dfs V} {p : Pair} {rest : List Pair}
    (hs : d.stack = p :: rest) (h : dfsStep w b d = .ok d') :
    (p ∈ d.used ∧ d'.used = d.used ∧ d'.stack = rest) ∨
      (p ∉ d.used ∧ d'.used = p :: d.used) := by
  unfold dfsStep at h
  rw [hs] at h
  simp only at h
  by_cases hp : p ∈ d.used
  · rw [if_pos hp] at h
    cases h
    exact .inl ⟨hp, rfl, rfl⟩
  rw [if_neg hp] at h
  refine .inr ⟨hp, ?_⟩
  split at h
  · split at h
    · cases h
    split at h
    · cases h
    split at h
    · cases h; rfl
    split at h
    · cases h
    rename_i d1 h1
    cases h
    have := expand_used h1
    exact this
  · split at h
    · cases h
    rename_i d1 h1
    cases h
    have := expand_used h1
    exact this

theorem dfs_stops {b : Bag} (hb : b.Ok) (hw : Decides w want)
    (hobj : ∀ x e, Own b x kObject e →
      want (.object x, kObject) (some .objectSchema) (.object x, e) = true) {root : Pair → Prop} {U : List Pair}
    (hU : ∀ r p, root r → Reach (Edge b want) r p → p ∈ U) :
    ∀ (n m : Nat) (d : Dfs V), Good b want root d → unused d.used U ≤ n → d.stack.length ≤ m →
      ∃ fuel r, dfs w b fuel d = some r := by
  intro n
  induction n with
  | zero =>
    intro m
    induction m with
    | zero =>
      intro d _ _ h
      exact ⟨0, .ok d, by unfold dfs; rw [if_pos (List.length_eq_zero_iff.mp (by omega))]⟩
    | succ m ih =>
      intro d hg hn hm
      match hs : d.stack with
      | [] => exact ⟨0, .ok d, by unfold dfs; rw [if_pos hs]⟩
      | p :: rest =>
        match hst : dfsStep w b d with
        | .error e => exact ⟨1, .error e, by unfold dfs; rw [if_neg (by simp [hs]), hst]⟩
        | .ok d' =>
          have hg' := step_good hb hw hobj hg hst
          rcases step_used hs hst with ⟨_, h2, h3⟩ | ⟨h1, h2⟩
          · obtain ⟨fuel, r, hr⟩ := ih d' hg' (by rw [h2]; exact hn)
              (by rw [h3]; rw [hs] at hm; simpa using hm)
            exact ⟨fuel + 1, r, by unfold dfs; rw [if_neg (by simp [hs]), hst]; exact hr⟩
          · obtain ⟨r, hr1, hr2⟩ := hg.inv.sound p (.inl (by rw [hs]; simp))
            have := unused_lt h1 (hU r p hr1 hr2)
            omega
  | succ n ihn =>
    intro m
    induction m with
    | zero =>
      intro d _ _ h
      exact ⟨0, .ok d, by unfold dfs; rw [if_pos (List.length_eq_zero_iff.mp (by omega))]⟩
    | succ m ih =>
      intro d hg hn hm
      match hs : d.stack with
      | [] => exact ⟨0, .ok d, by unfold dfs; rw [if_pos hs]⟩
      | p :: rest =>
        match hst : dfsStep w b d with
        | .error e => exact ⟨1, .error e, by unfold dfs; rw [if_neg (by simp [hs]), hst]⟩
        | .ok d' =>
          have hg' := step_good hb hw hobj hg hst
          rcases step_used hs hst with ⟨_, h2, h3⟩ | ⟨h1, h2⟩
          · obtain ⟨fuel, r, hr⟩ := ih d' hg' (by rw [h2]; exact hn)
              (by rw [h3]; rw [hs] at hm; simpa using hm)
            exact ⟨fuel + 1, r, by unfold dfs; rw [if_neg (by simp [hs]), hst]; exact hr⟩
          · obtain ⟨r, hr1, hr2⟩ := hg.inv.sound p (.inl (by rw [hs]; simp))
            have := unused_lt h1 (hU r p hr1 hr2)
            obtain ⟨fuel, r, hr⟩ := ihn d'.stack.length d' hg' (by rw [h2]; omega) (Nat.le_refl _)
            exact ⟨fuel + 1, r, by unfold dfs; rw [if_neg (by simp [hs]), hst]; exact hr⟩

/-- More iterations do not change the result. -/
theorem dfs_more {b : Bag} : ∀ {n m : Nat} {d : Dfs V} {r : Except Err (Dfs V)}, n ≤ m →
    dfs w b n d = some r → dfs w b m d = some r
  | 0, m, d, r, _, h => by
    unfold dfs at h
    split at h
    · rename_i hs
      cases m <;> (unfold dfs; rw [if_pos hs]; exact h)
    · cases h
  | n + 1, 0, d, r, hm, h => by omega
  | n + 1, m + 1, d, r, hm, h => by
    unfold dfs at h ⊢
    split at h
    · rename_i hs; rw [if_pos hs]; exact h
    · rename_i hs
      rw [if_neg hs]
      split at h
      · exact h
      · exact dfs_more (by omega) h

/-- The traversal ends. -/
theorem traverse_stops {b : Bag} (hb : b.Ok) (hw : Decides w want)
    (hobj : ∀ x e, Own b x kObject e →
      want (.object x, kObject) (some .objectSchema) (.object x, e) = true) {ds : List Item} {s : Item}
    {U : List Pair} (hU : ∀ r p, Root want ds s r → Reach (Edge b want) r p → p ∈ U) (v : V) :
    ∃ fuel r, ∀ n, fuel ≤ n → traverseSlice w b n v ds s = some r := by
  match hi : initDfs w v ds s with
  | .error e => exact ⟨0, .error e, fun n _ => by simp [traverseSlice, hi]⟩
  | .ok d =>
    obtain ⟨fuel, r, hr⟩ := dfs_stops hb hw hobj hU _ _ d (init_good hw hi) (Nat.le_refl _)
      (Nat.le_refl _)
    match r, hr with
    | .error e, hr => exact ⟨fuel, .error e, fun n hn => by
        simp [traverseSlice, hi, dfs_more hn hr]⟩
    | .ok d', hr => exact ⟨fuel, visitInPostOrder w b d'.v d'.order, fun n hn => by
        simp [traverseSlice, hi, dfs_more hn hr]⟩

end

end Verif.Traverse
