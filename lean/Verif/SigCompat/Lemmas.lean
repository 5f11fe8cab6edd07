import Verif.SigCompat.Spec
import Verif.Binding.Theorems

namespace Verif.SigCompat

open Verif.Binding

variable {V : Type}

/-- The calls that bind, by the number of positional arguments and the keywords. -/
structure Accepts (ps : List (Parameter V)) (n : Nat) (kw : List String) : Prop where
  fit : Has ps .varPositional ∨ n ≤ slots ps
  known : Has ps .varKeyword ∨ ∀ name ∈ kw, takes ps name = true
  once : ∀ (i : Nat) (p : Parameter V), ps[i]? = some p → p.positional = true →
    p.keyword = true → i < n → p.name ∉ kw
  required : ∀ (i : Nat) (p : Parameter V), ps[i]? = some p → p.default = none →
    p.kind ≠ .varPositional → p.kind ≠ .varKeyword →
    (p.positional = true ∧ i < n) ∨ (p.keyword = true ∧ p.name ∈ kw)

theorem choose_list {α β : Type} (ps : List α) : ∀ (G : Nat → α → β → Prop),
    (∀ (i : Nat) (p : α), ps[i]? = some p → ∃ b, G i p b) →
    ∃ out : List β, out.length = ps.length ∧
      ∀ (i : Nat) (p : α) (b : β), ps[i]? = some p → out[i]? = some b → G i p b := by
  induction ps with
  | nil => intro G _; exact ⟨[], rfl, fun i p b h => by simp at h⟩
  | cons a ps ih =>
    intro G h
    obtain ⟨b, hb⟩ := h 0 a rfl
    obtain ⟨out, hl, ho⟩ := ih (fun i => G (i + 1)) (fun i p hp => h (i + 1) p (by simpa using hp))
    refine ⟨b :: out, by simp [hl], ?_⟩
    intro i p b' hp hb'
    cases i with
    | zero =>
      simp only [List.getElem?_cons_zero, Option.some.injEq] at hp hb'
      subst hp; subst hb'; exact hb
    | succ i => exact ho i p b' (by simpa using hp) (by simpa using hb')

theorem works_iff {c : Cfg V} {ps : List (Parameter V)} {s : Signature V}
    (hs : create c ps = .ok s) (pos : List V) (kw : List (String × V)) :
    Works c s pos kw ↔ (kw.map Prod.fst).Nodup ∧ Accepts ps pos.length (kw.map Prod.fst) := by
  unfold Works
  have hb := fun out => C43_bind c ps s hs pos kw out
  simp only [hb]
  constructor
  · rintro ⟨out, h⟩
    refine ⟨h.distinct, h.fit, ?_, h.once, ?_⟩
    · rcases h.known with h' | h'
      · exact .inl h'
      · refine .inr fun name hn => ?_
        obtain ⟨e, he, rfl⟩ := List.mem_map.1 hn
        exact h' e he
    · intro i p hp hd h1 h2
      have hi : i < out.length := by rw [h.length]; exact (List.getElem?_eq_some_iff.1 hp).1
      have hg := h.values i p out[i] hp (List.getElem?_eq_getElem hi)
      generalize out[i] = b at hg
      cases hg with
      | positional a b => exact .inl ⟨a, (List.getElem?_eq_some_iff.1 b).1⟩
      | keyword a b => exact .inr ⟨a, List.mem_map.2 ⟨_, b, rfl⟩⟩
      | default a b e => rw [hd] at e; cases e
      | varPositional a => exact (h1 a).elim
      | varKeyword a => exact (h2 a).elim
  · rintro ⟨hn, h⟩
    obtain ⟨out, hl, ho⟩ := choose_list ps (Gets c ps pos kw) (by
      intro i p hp
      by_cases h1 : p.positional = true ∧ i < pos.length
      · exact ⟨_, .positional h1.1 (List.getElem?_eq_getElem h1.2)⟩
      by_cases h2 : p.keyword = true ∧ p.name ∈ kw.map Prod.fst
      · obtain ⟨⟨nm, v⟩, he, hnm⟩ := List.mem_map.1 h2.2
        simp only at hnm
        subst hnm
        exact ⟨_, .keyword h2.1 he⟩
      by_cases h3 : p.kind = .varPositional
      · exact ⟨_, .varPositional h3⟩
      by_cases h4 : p.kind = .varKeyword
      · exact ⟨_, .varKeyword h4⟩
      cases hd : p.default with
      | none =>
        rcases h.required i p hp hd h3 h4 with h' | h'
        · exact (h1 h').elim
        · exact (h2 h').elim
      | some v =>
        refine ⟨_, .default (fun hp' => ?_) (fun hk hm => h2 ⟨hk, hm⟩) hd⟩
        exact Nat.le_of_not_lt fun hlt => h1 ⟨hp', hlt⟩)
    refine ⟨out, hn, h.fit, ?_, h.once, hl, ho⟩
    rcases h.known with h' | h'
    · exact .inl h'
    · exact .inr fun e he => h' e.1 (List.mem_map.2 ⟨e, he, rfl⟩)

theorem accepts_congr {ps : List (Parameter V)} {n : Nat} {kw kw' : List String}
    (h : ∀ name, name ∈ kw ↔ name ∈ kw') : Accepts ps n kw ↔ Accepts ps n kw' := by
  constructor
  · intro a
    exact ⟨a.fit, a.known.imp id (fun f name hn => f name ((h name).2 hn)),
      fun i p h1 h2 h3 h4 h5 => a.once i p h1 h2 h3 h4 ((h _).2 h5),
      fun i p h1 h2 h3 h4 => (a.required i p h1 h2 h3 h4).imp id (fun x => ⟨x.1, (h _).1 x.2⟩)⟩
  · intro a
    exact ⟨a.fit, a.known.imp id (fun f name hn => f name ((h name).1 hn)),
      fun i p h1 h2 h3 h4 h5 => a.once i p h1 h2 h3 h4 ((h _).1 h5),
      fun i p h1 h2 h3 h4 => (a.required i p h1 h2 h3 h4).imp id (fun x => ⟨x.1, (h _).2 x.2⟩)⟩

theorem has_iff (ps : List (Parameter V)) (k : Kind) : 0 < countKind ps k ↔ Has ps k := by
  unfold countKind Has
  rw [List.countP_pos_iff]
  simp

theorem slots_eq (ps : List (Parameter V)) :
    countKind ps .positionalOnly + countKind ps .positionalOrKeyword = slots ps := by
  unfold countKind slots
  rw [← List.countP_eq_length_filter]
  induction ps with
  | nil => rfl
  | cons p ps ih =>
    simp only [List.countP_cons]
    unfold Parameter.positional at *
    cases hk : p.kind <;> simp <;> omega

theorem paramsOk_iff (n : Nat) (kw : List String) (ps : List (Parameter V)) : ∀ (i : Nat),
    paramsOk n kw i ps = true ↔
      ∀ (j : Nat) (p : Parameter V), ps[j]? = some p → paramOk n kw (i + j) p = true := by
  induction ps with
  | nil => intro i; simp [paramsOk]
  | cons a ps ih =>
    intro i
    simp only [paramsOk, Bool.and_eq_true, ih]
    constructor
    · rintro ⟨h0, h⟩ j p hp
      cases j with
      | zero =>
        simp only [List.getElem?_cons_zero, Option.some.injEq] at hp
        subst hp; exact h0
      | succ j =>
        have := h j p (by simpa using hp)
        rwa [show i + (j + 1) = i + 1 + j by omega]
    · intro h
      refine ⟨h 0 a rfl, fun j p hp => ?_⟩
      have := h (j + 1) p (by simpa using hp)
      rwa [show i + (j + 1) = i + 1 + j by omega] at this

theorem paramOk_iff (n : Nat) (kw : List String) (i : Nat) (p : Parameter V) :
    paramOk n kw i p = true ↔
      (p.positional = true → p.keyword = true → i < n → p.name ∉ kw) ∧
      (p.default = none → p.kind ≠ .varPositional → p.kind ≠ .varKeyword →
        (p.positional = true ∧ i < n) ∨ (p.keyword = true ∧ p.name ∈ kw)) := by
  unfold paramOk Parameter.positional Parameter.keyword
  cases hd : p.default <;> cases hk : p.kind <;> by_cases hi : i < n <;>
    by_cases hm : p.name ∈ kw <;> simp [hi, hm]

theorem inspect_iff (ps : List (Parameter V)) (n : Nat) (kw : List String) :
    inspectBind ps n kw = true ↔ Accepts ps n kw := by
  unfold inspectBind
  rw [slots_eq]
  simp only [Bool.and_eq_true, Bool.or_eq_true, decide_eq_true_eq, has_iff, List.all_eq_true,
    paramsOk_iff, Nat.zero_add, paramOk_iff]
  constructor
  · rintro ⟨⟨h1, h2⟩, h3⟩
    refine ⟨h1, h2.imp id (fun h name hn => ?_), fun i p hp => (h3 i p hp).1,
      fun i p hp => (h3 i p hp).2⟩
    exact h name hn
  · intro h
    exact ⟨⟨h.fit, h.known.imp id (fun f name hn => f name hn)⟩,
      fun i p hp => ⟨h.once i p hp, h.required i p hp⟩⟩

/-- A property of an initial part of a list holds at the indices before its count. -/
theorem prefix_count {α : Type} (f : α → Bool) (l : List α)
    (h : ∀ (i j : Nat) (a b : α), l[i]? = some a → l[j]? = some b → i < j → f b = true →
      f a = true) :
    ∀ (i : Nat), i < l.countP f ↔ ∃ a, l[i]? = some a ∧ f a = true := by
  induction l with
  | nil => intro i; simp
  | cons x l ih =>
    intro i
    have ih' := ih (fun i j a b ha hb hij => h (i + 1) (j + 1) a b (by simpa using ha)
      (by simpa using hb) (by omega))
    by_cases hx : f x = true
    · rw [List.countP_cons_of_pos hx]
      cases i with
      | zero => simp [hx]
      | succ i =>
        rw [Nat.add_lt_add_iff_right, ih']
        simp
    · have h0 : ∀ (j : Nat) (b : α), l[j]? = some b → f b = false := by
        intro j b hb
        cases hf : f b with
        | false => rfl
        | true => exact (hx (h 0 (j + 1) x b rfl (by simpa using hb) (by omega) hf)).elim
      have hc : l.countP f = 0 := by
        rw [List.countP_eq_zero]
        intro b hb
        obtain ⟨j, hj⟩ := List.getElem?_of_mem hb
        rw [h0 j b hj]
        exact Bool.false_ne_true
      rw [List.countP_cons_of_neg hx, hc]
      constructor
      · intro h; omega
      · rintro ⟨a, ha, hfa⟩
        cases i with
        | zero =>
          simp only [List.getElem?_cons_zero, Option.some.injEq] at ha
          subst ha; exact (hx hfa).elim
        | succ i =>
          rw [h0 i a (by simpa using ha)] at hfa
          cases hfa

theorem slots_iff {c : Cfg V} {ps : List (Parameter V)} (hv : PyValid c ps) (i : Nat) :
    i < slots ps ↔ ∃ p, ps[i]? = some p ∧ p.positional = true := by
  unfold slots
  rw [← List.countP_eq_length_filter]
  refine prefix_count _ ps ?_ i
  intro i j p q hp hq hij hb
  have ho := hv.order i j p q hp hq hij
  revert ho hb
  unfold Parameter.positional
  cases p.kind <;> cases q.kind <;> decide

theorem minPositional_iff {c : Cfg V} {ps : List (Parameter V)} (hv : PyValid c ps) (i : Nat) :
    i < minPositional ps ↔
      ∃ p, ps[i]? = some p ∧ p.kind = .positionalOnly ∧ p.default = none := by
  unfold minPositional
  rw [prefix_count]
  · constructor
    · rintro ⟨p, hp, h⟩
      simp only [Bool.and_eq_true, decide_eq_true_eq, Bool.not_eq_true', Option.isSome_eq_false_iff,
        Option.isNone_iff_eq_none] at h
      exact ⟨p, hp, h⟩
    · rintro ⟨p, hp, h1, h2⟩
      exact ⟨p, hp, by simp [h1, h2]⟩
  · intro i j p q hp hq hij hb
    simp only [Bool.and_eq_true, decide_eq_true_eq, Bool.not_eq_true'] at hb ⊢
    have ho := hv.order i j p q hp hq hij
    have hd := hv.defaults i j p q hp hq hij (by unfold Parameter.positional; simp [hb.1])
    constructor
    · revert ho
      rw [hb.1]
      cases p.kind <;> decide
    · cases h : p.default.isSome with
      | false => rfl
      | true => rw [hd h] at hb; exact absurd hb.2 (by decide)

theorem mem_minKeywords (ps : List (Parameter V)) (name : String) :
    name ∈ minKeywords ps ↔
      ∃ p ∈ ps, p.keyword = true ∧ p.default = none ∧ p.name = name := by
  unfold minKeywords Parameter.keyword
  simp [List.mem_map, List.mem_filter, and_assoc]

theorem maxPositional_eq {ps : List (Parameter V)} :
    maxPositional ps = slots ps + 10 * countKind ps .varPositional := by
  unfold maxPositional slots
  rw [← List.countP_eq_length_filter]
  rfl

theorem count_le_one {c : Cfg V} {ps : List (Parameter V)} (hv : PyValid c ps) (k : Kind)
    (hk : k = .varPositional ∨ k = .varKeyword) : countKind ps k ≤ 1 := by
  have h1 := fun i j p q hp hq (hpk : p.kind = k) (hqk : q.kind = k) =>
    hv.one i j p q hp hq (hpk.trans hqk.symm) (by rw [hpk]; exact hk)
  clear hv
  unfold countKind
  induction ps with
  | nil => simp
  | cons a ps ih =>
    have ih' := ih (fun i j p q hp hq h2 h3 => by
      have := h1 (i + 1) (j + 1) p q (by simpa using hp) (by simpa using hq) h2 h3
      omega)
    by_cases ha : a.kind = k
    · rw [List.countP_cons_of_pos (by simpa using ha), List.countP_eq_zero.2]
      · omega
      · intro b hb
        obtain ⟨j, hj⟩ := List.getElem?_of_mem hb
        intro hbk
        have := h1 0 (j + 1) a b rfl (by simpa using hj) ha (by simpa using hbk)
        omega
    · rw [List.countP_cons_of_neg (by simpa using ha)]
      exact ih'

theorem mem_maxKeywords (ps : List (Parameter V)) (name : String) :
    name ∈ maxKeywords ps ↔
      (∃ p ∈ ps, p.kind = .keywordOnly ∧ p.name = name) ∨
      (Has ps .varKeyword ∧ name = unusualName) := by
  unfold maxKeywords
  rw [List.mem_append, List.mem_replicate, ← has_iff, Nat.pos_iff_ne_zero]
  simp [List.mem_map, List.mem_filter, and_assoc]

theorem takes_iff (ps : List (Parameter V)) (name : String) :
    takes ps name = true ↔ ∃ p ∈ ps, p.keyword = true ∧ p.name = name := by
  unfold takes
  simp

end Verif.SigCompat
