import Verif.BagWorld.Spec
/-
Lemmas about the order in which fallbacks are visited: bags that are left out
because they have been seen before do not matter.
-/

namespace Verif.BagWorld

open Verif.BagAttr

/-- Fallbacks are older than the bag. -/
def Acyclic (bags : List DataBag) : Prop :=
  ∀ (f : Nat) (d : DataBag), bags[f]? = some d → ∀ c ∈ d.fallbacks, c < f

theorem visit_nil (bags : List DataBag) (seen : List Nat) : visit bags [] seen = [] := by
  rw [visit.eq_def]

theorem visit_seen {bags : List DataBag} {f : Nat} {seen : List Nat} (h : f ∈ seen) (rest : List Nat) :
    visit bags (f :: rest) seen = visit bags rest seen := by
  rw [visit.eq_def]
  simp only
  split
  · rfl
  · rw [dif_pos h]

theorem visit_new {bags : List DataBag} {f : Nat} {d : DataBag} {seen : List Nat}
    (hd : bags[f]? = some d) (h : f ∉ seen) (rest : List Nat) :
    visit bags (f :: rest) seen = f :: visit bags (d.fallbacks ++ rest) (seen ++ [f]) := by
  rw [visit.eq_def]
  simp only
  split
  · rename_i hn; rw [hd] at hn; cases hn
  · rename_i d' hd'
    rw [hd] at hd'
    rw [dif_neg h, Option.some.inj hd']

theorem visit_none {bags : List DataBag} {f : Nat} (hd : bags[f]? = none) (rest seen : List Nat) :
    visit bags (f :: rest) seen = visit bags rest seen := by
  rw [visit.eq_def]
  simp only
  split
  · rfl
  · rename_i d' hd'; rw [hd] at hd'; cases hd'

theorem visit_append (bags : List DataBag) (F V : List Nat) : ∀ S,
    visit bags (F ++ S) V = visit bags F V ++ visit bags S (V ++ visit bags F V) := by
  refine visit.induct bags (motive := fun F V => ∀ S,
    visit bags (F ++ S) V = visit bags F V ++ visit bags S (V ++ visit bags F V)) ?_ ?_ ?_ ?_ F V
  · intro V S
    rw [visit_nil]; simp
  · intro V f rest hn ih S
    rw [List.cons_append, visit_none hn, visit_none hn]
    exact ih S
  · intro V f rest d hd hs ih S
    rw [List.cons_append, visit_seen hs, visit_seen hs]
    exact ih S
  · intro V f rest d hd hs ih S
    rw [List.cons_append, visit_new hd hs, visit_new hd hs]
    have := ih S
    rw [List.append_assoc] at this
    rw [this]
    simp

theorem visit_lt {bags : List DataBag} (hac : Acyclic bags) {k : Nat} (F V : List Nat) :
    (∀ f ∈ F, f < k) → ∀ g ∈ visit bags F V, g < k := by
  refine visit.induct bags (motive := fun F V => (∀ f ∈ F, f < k) → ∀ g ∈ visit bags F V, g < k)
    ?_ ?_ ?_ ?_ F V
  · intro V _ g hg
    rw [visit_nil] at hg; cases hg
  · intro V f rest hn ih hF
    rw [visit_none hn]
    exact ih fun f hf => hF f (List.mem_cons_of_mem _ hf)
  · intro V f rest d hd hs ih hF
    rw [visit_seen hs]
    exact ih fun f hf => hF f (List.mem_cons_of_mem _ hf)
  · intro V f rest d hd hs ih hF g hg
    rw [visit_new hd hs] at hg
    rcases List.mem_cons.1 hg with rfl | hg
    · exact hF _ (by simp)
    · refine ih ?_ g hg
      intro x hx
      rcases List.mem_append.1 hx with hx | hx
      · exact Nat.lt_trans (hac f d hd x hx) (hF f (by simp))
      · exact hF x (List.mem_cons_of_mem _ hx)

/-- Only the fallbacks of bags matter. -/
theorem visit_congr {bags bags' : List DataBag} (hac : Acyclic bags)
    (h : ∀ (f : Nat) (d : DataBag), bags[f]? = some d →
      ∃ d' : DataBag, bags'[f]? = some d' ∧ d'.fallbacks = d.fallbacks) (F V : List Nat) :
    (∀ f ∈ F, f < bags.length) → visit bags' F V = visit bags F V := by
  refine visit.induct bags (motive := fun F V => (∀ f ∈ F, f < bags.length) →
    visit bags' F V = visit bags F V) ?_ ?_ ?_ ?_ F V
  · intro V _
    rw [visit_nil, visit_nil]
  · intro V f rest hn ih hF
    have := hF f (by simp)
    rw [List.getElem?_eq_getElem this] at hn
    cases hn
  · intro V f rest d hd hs ih hF
    rw [visit_seen hs, visit_seen hs]
    exact ih fun f hf => hF f (List.mem_cons_of_mem _ hf)
  · intro V f rest d hd hs ih hF
    obtain ⟨d', h1, h2⟩ := h f d hd
    rw [visit_new hd hs, visit_new h1 hs, h2]
    congr 1
    apply ih
    intro x hx
    rcases List.mem_append.1 hx with hx | hx
    · exact Nat.lt_trans (hac f d hd x hx) (hF f (by simp))
    · exact hF x (List.mem_cons_of_mem _ hx)

/-- Every visited bag is there. -/
theorem visit_valid {bags : List DataBag} (F V : List Nat) :
    ∀ g ∈ visit bags F V, g < bags.length := by
  refine visit.induct bags (motive := fun F V => ∀ g ∈ visit bags F V, g < bags.length)
    ?_ ?_ ?_ ?_ F V
  · intro V g hg
    rw [visit_nil] at hg; cases hg
  · intro V f rest hn ih
    rw [visit_none hn]; exact ih
  · intro V f rest d hd hs ih
    rw [visit_seen hs]; exact ih
  · intro V f rest d hd hs ih g hg
    rw [visit_new hd hs] at hg
    rcases List.mem_cons.1 hg with rfl | hg
    · exact (List.getElem?_eq_some_iff.1 hd).1
    · exact ih g hg

/-- Every visited bag is on the stack or is a fallback of some bag. -/
theorem visit_mem {bags : List DataBag} (F V : List Nat) :
    ∀ g ∈ visit bags F V, g ∈ F ∨ ∃ (f : Nat) (d : DataBag), bags[f]? = some d ∧ g ∈ d.fallbacks := by
  refine visit.induct bags (motive := fun F V => ∀ g ∈ visit bags F V, g ∈ F ∨
    ∃ (f : Nat) (d : DataBag), bags[f]? = some d ∧ g ∈ d.fallbacks) ?_ ?_ ?_ ?_ F V
  · intro V g hg
    rw [visit_nil] at hg; cases hg
  · intro V f rest hn ih g hg
    rw [visit_none hn] at hg
    exact (ih g hg).imp (List.mem_cons_of_mem _) id
  · intro V f rest d hd hs ih g hg
    rw [visit_seen hs] at hg
    exact (ih g hg).imp (List.mem_cons_of_mem _) id
  · intro V f rest d hd hs ih g hg
    rw [visit_new hd hs] at hg
    rcases List.mem_cons.1 hg with rfl | hg
    · exact .inl (by simp)
    · rcases ih g hg with h | h
      · rcases List.mem_append.1 h with h | h
        · exact .inr ⟨f, d, hd, h⟩
        · exact .inl (List.mem_cons_of_mem _ h)
      · exact .inr h

/-! ### The first bag that knows something -/

variable (L : Nat → Cell)

/-- The fallbacks of a bag. -/
def kids (bags : List DataBag) (f : Nat) : List Nat :=
  match bags[f]? with
  | none => []
  | some d => d.fallbacks

/-- What a bag with all its fallbacks knows, if `L` is what each one knows. -/
def first (bags : List DataBag) (f : Nat) : Cell :=
  (f :: visit bags (kids bags f) [f]).findSome? L

/-- The bags below `k` that have been seen know nothing, and their fallbacks have
been seen. -/
def Closed (bags : List DataBag) (V : List Nat) (k : Nat) : Prop :=
  ∀ g ∈ V, g < k → L g = none ∧ ∀ c ∈ kids bags g, c ∈ V

theorem kids_some {bags : List DataBag} {f : Nat} {d : DataBag} (h : bags[f]? = some d) :
    kids bags f = d.fallbacks := by
  unfold kids; rw [h]

theorem kids_lt {bags : List DataBag} (hac : Acyclic bags) {f c : Nat} (h : c ∈ kids bags f) : c < f := by
  unfold kids at h
  cases hd : bags[f]? with
  | none => rw [hd] at h; cases h
  | some d => rw [hd] at h; exact hac f d hd c h

theorem kids_valid {bags : List DataBag} (hac : Acyclic bags) {f c : Nat} (h : c ∈ kids bags f) :
    c < bags.length := by
  have h1 := kids_lt hac h
  unfold kids at h
  cases hd : bags[f]? with
  | none => rw [hd] at h; cases h
  | some d => exact Nat.lt_trans h1 (List.getElem?_eq_some_iff.1 hd).1

private theorem main {bags : List DataBag} (hac : Acyclic bags) : ∀ k, ∀ F : List Nat,
    (∀ f ∈ F, f < k ∧ f < bags.length) → ∀ V, Closed L bags V k →
      (visit bags F V).findSome? L = F.findSome? (first L bags) ∧
      ((visit bags F V).findSome? L = none →
        Closed L bags (V ++ visit bags F V) k ∧ ∀ f ∈ F, f ∈ V ++ visit bags F V) := by
  intro k
  induction k using Nat.strongRecOn with
  | _ k ihk =>
    -- the recursion equation for smaller bags
    have hrec : ∀ f, f < k → first L bags f = (L f).or ((kids bags f).findSome? (first L bags)) := by
      intro f hf
      have := (ihk f hf (kids bags f) (fun c hc => ⟨kids_lt hac hc, kids_valid hac hc⟩) [f]
        (fun g hg hlt => by rw [List.mem_singleton] at hg; omega)).1
      unfold first
      rw [List.findSome?_cons]
      cases hL : L f with
      | some x => rfl
      | none => exact this
    have hdead : ∀ V, Closed L bags V k → ∀ f, f ∈ V → f < k → first L bags f = none := by
      intro V hV f
      induction f using Nat.strongRecOn with
      | _ f ihf =>
        intro hfV hfk
        obtain ⟨h1, h2⟩ := hV f hfV hfk
        rw [hrec f hfk, h1, Option.none_or, List.findSome?_eq_none_iff]
        intro c hc
        have := kids_lt hac hc
        exact ihf c this (h2 c hc) (by omega)
    intro F
    induction F with
    | nil =>
      intro _ V hV
      rw [visit_nil]
      exact ⟨rfl, fun _ => ⟨by simpa using hV, by simp⟩⟩
    | cons f F ihF =>
      intro hF V hV
      obtain ⟨hfk, hfl⟩ := hF f (by simp)
      have hF' : ∀ f ∈ F, f < k ∧ f < bags.length := fun x hx => hF x (List.mem_cons_of_mem _ hx)
      rw [List.findSome?_cons]
      by_cases hfV : f ∈ V
      · rw [visit_seen hfV, hdead V hV f hfV hfk]
        obtain ⟨h1, h2⟩ := ihF hF' V hV
        refine ⟨h1, fun h => ⟨(h2 h).1, ?_⟩⟩
        intro x hx
        rcases List.mem_cons.1 hx with rfl | hx
        · exact List.mem_append_left _ hfV
        · exact (h2 h).2 x hx
      · have hd : bags[f]? = some bags[f] := List.getElem?_eq_getElem hfl
        rw [visit_new hd hfV, ← kids_some hd, visit_append, hrec f hfk, List.findSome?_cons]
        cases hL : L f with
        | some x => exact ⟨rfl, fun h => by cases h⟩
        | none =>
          simp only [Option.none_or]
          have hV1 : Closed L bags (V ++ [f]) f := by
            intro g hg hlt
            rcases List.mem_append.1 hg with hg | hg
            · obtain ⟨h1, h2⟩ := hV g hg (by omega)
              exact ⟨h1, fun c hc => List.mem_append_left _ (h2 c hc)⟩
            · rw [List.mem_singleton] at hg; omega
          obtain ⟨h1, h2⟩ := ihk f hfk (kids bags f)
            (fun c hc => ⟨kids_lt hac hc, kids_valid hac hc⟩) (V ++ [f]) hV1
          rw [List.findSome?_append, h1]
          cases hk : (kids bags f).findSome? (first L bags) with
          | some x => exact ⟨rfl, fun h => by cases h⟩
          | none =>
            rw [hk] at h1
            obtain ⟨h3, h4⟩ := h2 h1
            have hV2 : Closed L bags (V ++ [f] ++ visit bags (kids bags f) (V ++ [f])) k := by
              intro g hg hlt
              rcases List.mem_append.1 hg with hg' | hg'
              · rcases List.mem_append.1 hg' with hg' | hg'
                · obtain ⟨h5, h6⟩ := hV g hg' hlt
                  exact ⟨h5, fun c hc => List.mem_append_left _ (List.mem_append_left _ (h6 c hc))⟩
                · rw [List.mem_singleton] at hg'
                  subst hg'
                  exact ⟨hL, h4⟩
              · exact h3 g hg (visit_lt hac (kids bags f) (V ++ [f])
                  (fun c hc => kids_lt hac hc) g hg')
            obtain ⟨h5, h6⟩ := ihF hF' _ hV2
            simp only [Option.none_or]
            refine ⟨h5, fun h => ?_⟩
            obtain ⟨h7, h8⟩ := h6 h
            have he : V ++ f :: (visit bags (kids bags f) (V ++ [f]) ++
                visit bags F (V ++ [f] ++ visit bags (kids bags f) (V ++ [f]))) =
              V ++ [f] ++ visit bags (kids bags f) (V ++ [f]) ++
                visit bags F (V ++ [f] ++ visit bags (kids bags f) (V ++ [f])) := by simp
            rw [he]
            refine ⟨h7, ?_⟩
            intro x hx
            rcases List.mem_cons.1 hx with rfl | hx
            · simp
            · exact h8 x hx

/-- A bag knows what it knows itself, or else what the first of its fallbacks that
knows something knows. -/
theorem first_eq {bags : List DataBag} (hac : Acyclic bags) (f : Nat) :
    first L bags f = (L f).or ((kids bags f).findSome? (first L bags)) := by
  have := (main L hac f (kids bags f) (fun c hc => ⟨kids_lt hac hc, kids_valid hac hc⟩) [f]
    (fun g hg hlt => by rw [List.mem_singleton] at hg; omega)).1
  unfold first
  rw [List.findSome?_cons]
  cases hL : L f with
  | some x => rfl
  | none => exact this

end Verif.BagWorld
