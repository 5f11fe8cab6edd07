import Verif.StreamLoop.Spec

/-!
A routine against the run of its program that is never interrupted and never waits.
-/

namespace Verif.StreamLoop

open Verif.StreamChain (Input)

variable {V S L : Type}

/-- The state of a program. -/
structure Ideal (V S L : Type) where
  loc : L
  /-- what is left to read of each stream -/
  rest : List (List V × S)
  items : List V
  closed : Option S

/-- An operation that is not interrupted and does not wait. -/
def Ideal.step (P : L → Action V S L) (x : Ideal V S L) : Ideal V S L :=
  match P x.loc with
  | .check no _ => { x with loc := no }
  | .pure next => { x with loc := next }
  | .makeReader items ending next => { x with rest := x.rest ++ [(items, ending)], loc := next x.rest.length }
  | .tryRead r item closed _ _ =>
    match x.rest[r]? with
    | none => x
    | some ([], s) => { x with loc := closed s }
    | some (v :: vs, s) => { x with rest := x.rest.set r (vs, s), loc := item v }
  | .tryWrite v written _ => { x with items := x.items ++ [v], loc := written }
  | .tryClose s next => { x with closed := some s, loc := next }
  | .stop => x

/-- The state after a number of operations. -/
def Ideal.after (P : L → Action V S L) (x : Ideal V S L) : Nat → Ideal V S L
  | 0 => x
  | n + 1 => (x.after P n).step P

/-- An operation after the output was closed by someone else. -/
inductive Lax (P : L → Action V S L) (x : Ideal V S L) : Ideal V S L → Prop
  | check {no yes : L} : P x.loc = .check no yes → Lax P x { x with loc := yes }
  | pure {next : L} : P x.loc = .pure next → Lax P x { x with loc := next }
  | make {items ending next} : P x.loc = .makeReader items ending next →
      Lax P x { x with rest := x.rest ++ [(items, ending)], loc := next x.rest.length }
  | item {r item closed q l v vs s} : P x.loc = .tryRead r item closed q l → x.rest[r]? = some (v :: vs, s) →
      Lax P x { x with rest := x.rest.set r (vs, s), loc := item v }
  | closed {r item closed q l s} : P x.loc = .tryRead r item closed q l → x.rest[r]? = some ([], s) →
      Lax P x { x with loc := closed s }
  | later {r item closed q l} : P x.loc = .tryRead r item closed q l → Lax P x { x with loc := l }
  | written {v written failed} : P x.loc = .tryWrite v written failed →
      Lax P x { x with items := x.items ++ [v], loc := written }
  | failed {v written failed} : P x.loc = .tryWrite v written failed → Lax P x { x with loc := failed }
  | close {s next} : P x.loc = .tryClose s next → Lax P x { x with loc := next }

/-- The states after the output was closed by someone else. -/
inductive Late (P : L → Action V S L) (x₀ : Ideal V S L) : Ideal V S L → Prop
  | start (n : Nat) : (x₀.after P n).closed = none → Late P x₀ (x₀.after P n)
  | step {x y : Ideal V S L} : Late P x₀ x → Lax P x y → Late P x₀ y

/-- What is left to read. -/
def World.rest (w : World V S L) : List (List V × S) :=
  w.readers.map fun x => (x.items.drop x.read, x.ending)

/-- A program waits for the stream in which it found nothing and then reads it again; it stops after
`TryClose`, and reads only streams for which it has a reader. `K` holds of its states and its number of
readers. -/
structure Valid (P : L → Action V S L) (K : L → Nat → Prop) : Prop where
  check : ∀ {l m no yes}, K l m → P l = .check no yes → K no m ∧ K yes m
  pure : ∀ {l m next}, K l m → P l = .pure next → K next m
  make : ∀ {l m items ending next}, K l m → P l = .makeReader items ending next → K (next m) (m + 1)
  read : ∀ {l m r item closed q l'}, K l m → P l = .tryRead r item closed q l' →
    r < m ∧ q = r ∧ l' = l ∧ (∀ v, K (item v) m) ∧ ∀ s, K (closed s) m
  write : ∀ {l m v written failed}, K l m → P l = .tryWrite v written failed → K written m ∧ K failed m
  close : ∀ {l m s next}, K l m → P l = .tryClose s next → K next m ∧ P next = .stop

/-- A stream with a reader. -/
structure Readable (x : Input V S) : Prop where
  read : x.read ≤ x.ready
  ready : x.ready ≤ x.items.length
  ended : x.ended = true → x.ready = x.items.length

/-- How the routine stands to the run of the program from `x₀`. -/
inductive Phase (orphaned : S) (P : L → Action V S L) (x₀ : Ideal V S L) (w : World V S L) : Prop
  /-- nobody closed or dropped the output -/
  | free (n : Nat) (requested : w.requested = false) (gone : w.gone = false) (closed : w.closed = none)
      (destroyed : w.destroyed = false) (cancel : w.cancel = .idle)
      (open_ : (x₀.after P n).closed = none) (items : (x₀.after P n).items = w.items)
      (rest : (x₀.after P n).rest = w.rest) (loc : (x₀.after P n).loc = w.loc)
      (closing : ∀ s, w.pc ≠ .closing s)
      (done : w.pc = .done → w.cancelled.isSome = true)
  /-- the routine closed the output -/
  | own (n : Nat) (s : S) (requested : w.requested = true) (cancel : w.cancel ≠ .closing)
      (ending : (x₀.after P n).closed = some s) (items : (x₀.after P n).items = w.items)
      (loc : P w.loc = .stop)
      (pc : (w.pc = .closing s ∧ w.closed = none ∧ w.destroyed = false) ∨
        ((w.pc = .running ∨ w.pc = .done) ∧ (w.closed = some s ∨ (w.gone = true ∧ w.closed = none))))
  /-- the output was dropped -/
  | dropped (n : Nat) (gone : w.gone = true) (closed : w.closed = none)
      (items : (x₀.after P n).items = w.items)
  /-- the cancellation closed the output -/
  | cancelled (s : S) (x : Ideal V S L) (requested : w.requested = true) (status : w.cancelled = some s)
      (closing : ∀ s, w.pc ≠ .closing s)
      (cancel : (w.cancel = .closing ∧ w.closed = none) ∨
        (w.cancel = .done ∧ (w.closed = some s ∨ (w.gone = true ∧ w.closed = none))))
      (late : Late P x₀ x) (items : x.items = w.items) (rest : x.rest = w.rest) (loc : x.loc = w.loc)
  /-- the output was closed because the writer was destroyed -/
  | orphaned (n : Nat) (requested : w.requested = true) (pc : w.pc = .done)
      (cancel : w.cancel ≠ .closing) (closed : w.closed = some orphaned)
      (items : (x₀.after P n).items = w.items)
      (why : w.cancelled.isSome = true)

/-- The reader that the routine is going to wait for. -/
def Pc.reader : Pc S → Option Nat
  | .checking r => some r
  | .subscribing r => some r
  | .waiting r => some r
  | _ => none

/-- The invariant. -/
structure Inv (orphaned : S) (P : L → Action V S L) (K : L → Nat → Prop) (x₀ : Ideal V S L) (w : World V S L) :
    Prop where
  readable : ∀ (r : Nat) (x : Input V S), w.readers[r]? = some x → Readable x
  valid : K w.loc w.readers.length
  reader : ∀ r, w.pc.reader = some r → r < w.readers.length
  phase : Phase orphaned P x₀ w

theorem readable_produce {x : Input V S} (h : Readable x) : Readable x.produce := by
  unfold Input.produce
  by_cases hc : x.ready < x.items.length ∧ x.ended = false
  · rw [if_pos hc]
    exact ⟨Nat.le_succ_of_le h.read, hc.1, fun he => by simp [hc.2] at he⟩
  · rw [if_neg hc]; exact h

theorem readable_finish {x : Input V S} (h : Readable x) : Readable x.finish := by
  unfold Input.finish
  by_cases hc : x.ready = x.items.length
  · rw [if_pos hc]; exact ⟨h.read, h.ready, fun _ => hc⟩
  · rw [if_neg hc]; exact h

theorem rest_set {w : World V S L} {r : Nat} {x y : Input V S} (hx : w.readers[r]? = some x)
    (hi : y.items = x.items) (he : y.ending = x.ending) (hr : y.read = x.read) :
    (w.readers.set r y).map (fun x => (x.items.drop x.read, x.ending)) =
      w.readers.map fun x => (x.items.drop x.read, x.ending) := by
  apply List.ext_getElem?
  intro i
  simp only [List.getElem?_map, List.getElem?_set]
  by_cases h : r = i
  · subst h
    obtain ⟨hlt, hx⟩ := List.getElem?_eq_some_iff.mp hx
    simp [hlt, hi, he, hr, hx]
  · simp [h]

theorem readable_set {w : World V S L} {r : Nat} {y : Input V S}
    (h : ∀ (r : Nat) (x : Input V S), w.readers[r]? = some x → Readable x) (hy : Readable y) :
    ∀ (i : Nat) (x : Input V S), (w.readers.set r y)[i]? = some x → Readable x := by
  intro i x hx
  rw [List.getElem?_set] at hx
  by_cases hri : r = i
  · subst hri
    rw [if_pos rfl] at hx
    split at hx
    · injection hx with hx; exact hx ▸ hy
    · cases hx
  · rw [if_neg hri] at hx
    exact h i x hx

/-- The state of the program at the start of the routine. -/
structure Starts (P : L → Action V S L) (K : L → Nat → Prop) (x₀ : Ideal V S L) (w : World V S L) : Prop where
  loc : x₀.loc = w.loc
  rest : x₀.rest = w.rest
  items : x₀.items = w.items
  open_ : x₀.closed = none
  readable : ∀ (r : Nat) (x : Input V S), w.readers[r]? = some x → Readable x
  valid : K w.loc w.readers.length
  pc : w.pc = .starting
  requested : w.requested = false
  closed : w.closed = none
  gone : w.gone = false
  cancelled : w.cancelled = none
  cancel : w.cancel = .idle
  destroyed : w.destroyed = false

/-- The runs of the programs that are considered. -/
structure Runs (P : L → Action V S L) (K : L → Nat → Prop) (x₀ : Ideal V S L) : Prop where
  valid : Valid P K
  stop : ∀ n, P (x₀.after P n).loc = .stop → (x₀.after P n).closed.isSome = true

section Steps

variable {orphaned : S} {P : L → Action V S L} {K : L → Nat → Prop} {x₀ : Ideal V S L} {w : World V S L}

theorem inv_starts (h : Starts P K x₀ w) : Inv orphaned P K x₀ w := by
  refine ⟨h.readable, h.valid, ?_, ?_⟩
  · intro r hr; rw [h.pc] at hr; cases hr
  refine .free 0 h.requested h.gone h.closed h.destroyed h.cancel h.open_ h.items h.rest h.loc ?_ ?_
  · intro s; rw [h.pc]; intro hc; cases hc
  · intro hd; rw [h.pc] at hd; cases hd

theorem inv_change (h : Inv orphaned P K x₀ w) (r : Nat) (f : Input V S → Input V S)
    (hf : ∀ x, Readable x → Readable (f x))
    (hsame : ∀ x, (f x).items = x.items ∧ (f x).ending = x.ending ∧ (f x).read = x.read) :
    Inv orphaned P K x₀ (w.change r f) := by
  unfold World.change
  cases hx : w.readers[r]? with
  | none => exact h
  | some x =>
    obtain ⟨h1, h2, h3⟩ := hsame x
    have hrest := rest_set hx h1 h2 h3
    refine ⟨readable_set h.readable (hf x (h.readable r x hx)), by simpa using h.valid,
      by simpa using h.reader, ?_⟩
    cases h.phase with
    | free n requested gone closed destroyed cancel open_ items rest loc closing done =>
      exact .free n requested gone closed destroyed cancel open_ items (rest.trans hrest.symm) loc closing done
    | own n s requested cancel ending items loc pc => exact .own n s requested cancel ending items loc pc
    | dropped n gone closed items => exact .dropped n gone closed items
    | cancelled s y requested status closing cancel late items rest loc =>
      exact .cancelled s y requested status closing cancel late items (rest.trans hrest.symm) loc
    | orphaned n requested pc cancel closed items why =>
      exact .orphaned n requested pc cancel closed items why

theorem readable_act (h : ∀ (r : Nat) (x : Input V S), w.readers[r]? = some x → Readable x)
    (a : Action V S L) :
    ∀ (r : Nat) (x : Input V S), (w.act a).readers[r]? = some x → Readable x := by
  cases a with
  | check no yes => exact h
  | pure next => exact h
  | makeReader items ending next =>
    intro r x hx
    simp only [World.act] at hx
    rw [List.getElem?_append] at hx
    split at hx
    · exact h r x hx
    · rcases hr : r - w.readers.length with _ | k
      · rw [hr] at hx
        simp only [List.getElem?_cons_zero, Option.some.injEq] at hx
        subst hx
        exact ⟨Nat.le_refl _, Nat.zero_le _, fun he => by cases he⟩
      · rw [hr] at hx; simp at hx
  | tryRead r item closed q l =>
    simp only [World.act]
    cases hx : w.readers[r]? with
    | none => exact h
    | some x =>
      simp only
      by_cases hlt : x.read < x.ready
      · rw [if_pos hlt]
        cases hv : x.items[x.read]? with
        | none => exact h
        | some v =>
          have hx' := h r x hx
          exact readable_set h ⟨hlt, hx'.ready, hx'.ended⟩
      · rw [if_neg hlt]
        by_cases he : x.ended
        · rw [if_pos he]; exact h
        · rw [if_neg he]; exact h
  | tryWrite v written failed => simp only [World.act]; split <;> exact h
  | tryClose s next => simp only [World.act]; split <;> exact h
  | stop => exact h

/-- What `TryRead` does. -/
inductive ReadCase (w : World V S L) (r : Nat) (item : V → L) (closed : S → L) (q : Nat) (l : L) : Prop
  | item (x : Input V S) (v : V) (vs : List V) (hx : w.readers[r]? = some x)
      (hrest : w.rest[r]? = some (v :: vs, x.ending))
      (hlen : (w.act (.tryRead r item closed q l)).readers.length = w.readers.length)
      (hrest' : (w.act (.tryRead r item closed q l)).rest = w.rest.set r (vs, x.ending))
      (hw : w.act (.tryRead r item closed q l) =
        { w with readers := w.readers.set r { x with read := x.read + 1 }, loc := item v })
  | closed (x : Input V S) (hx : w.readers[r]? = some x) (hrest : w.rest[r]? = some ([], x.ending))
      (hw : w.act (.tryRead r item closed q l) = { w with loc := closed x.ending })
  | later (x : Input V S) (hx : w.readers[r]? = some x) (hread : x.read = x.ready) (hended : x.ended = false)
      (hw : w.act (.tryRead r item closed q l) = { w with pc := .checking q, loc := l })

theorem read_case (h : ∀ (r : Nat) (x : Input V S), w.readers[r]? = some x → Readable x) {r : Nat}
    (hr : r < w.readers.length) (item : V → L) (closed : S → L) (q : Nat) (l : L) :
    ReadCase w r item closed q l := by
  obtain ⟨x, hx⟩ : ∃ x, w.readers[r]? = some x := ⟨_, List.getElem?_eq_getElem hr⟩
  have hxr := h r x hx
  have hrest : w.rest[r]? = some (x.items.drop x.read, x.ending) := by
    simp [World.rest, hx]
  by_cases hlt : x.read < x.ready
  · have hlen : x.read < x.items.length := Nat.lt_of_lt_of_le hlt hxr.ready
    have hv : x.items[x.read]? = some x.items[x.read] := List.getElem?_eq_getElem hlen
    have hw : w.act (.tryRead r item closed q l) =
        { w with readers := w.readers.set r { x with read := x.read + 1 }, loc := item x.items[x.read] } := by
      simp [World.act, hx, hlt, hv]
    refine .item x x.items[x.read] (x.items.drop (x.read + 1)) hx ?_ ?_ ?_ hw
    · rw [hrest, List.drop_eq_getElem_cons hlen]
    · rw [hw]; simp
    · rw [hw]; simp [World.rest, List.map_set]
  · by_cases he : x.ended
    · refine .closed x hx ?_ ?_
      · rw [hrest, List.drop_eq_nil_of_le]
        have := hxr.ended he; omega
      · simp [World.act, hx, hlt, he]
    · have h1 : x.read = x.ready := by have := hxr.read; omega
      refine .later x hx h1 (by simpa using he) ?_
      simp [World.act, hx, hlt, he]

theorem reader_act (hv : Valid P K) (hK : K w.loc w.readers.length) (hpc : w.pc = .running)
    (hr : ∀ (r : Nat) (x : Input V S), w.readers[r]? = some x → Readable x) :
    K (w.act (P w.loc)).loc (w.act (P w.loc)).readers.length ∧
      ∀ r, (w.act (P w.loc)).pc.reader = some r → r < (w.act (P w.loc)).readers.length := by
  have hrun : ∀ {w' : World V S L}, w'.pc = w.pc → ∀ r, w'.pc.reader = some r → r < w'.readers.length := by
    intro w' h r hr
    rw [h, hpc] at hr; cases hr
  cases hP : P w.loc with
  | check no yes =>
    refine ⟨?_, hrun rfl⟩
    have := hv.check hK hP
    simp only [World.act]
    split
    · exact this.2
    · exact this.1
  | pure next => exact ⟨hv.pure hK hP, hrun rfl⟩
  | makeReader items ending next =>
    refine ⟨?_, hrun rfl⟩
    simpa [World.act] using hv.make hK hP
  | tryRead r item closed q l =>
    obtain ⟨hlt, hq, hl, hi, hc⟩ := hv.read hK hP
    cases read_case hr hlt item closed q l with
    | item x v vs hx hrest hlen hrest' hw => rw [hw]; exact ⟨by simpa using hi v, hrun rfl⟩
    | closed x hx hrest hw => rw [hw]; exact ⟨hc _, hrun rfl⟩
    | later x hx h1 h2 hw =>
      rw [hw]
      refine ⟨by rw [hl]; exact hK, ?_⟩
      intro r' hr'
      injection hr' with hr'
      show r' < w.readers.length
      rw [← hr', hq]; exact hlt
  | tryWrite v written failed =>
    have := hv.write hK hP
    simp only [World.act]
    split
    · exact ⟨this.2, hrun rfl⟩
    · exact ⟨this.1, hrun rfl⟩
  | tryClose s next =>
    have := (hv.close hK hP).1
    simp only [World.act]
    split
    · exact ⟨this, hrun rfl⟩
    · exact ⟨this, fun r hr => by cases hr⟩
  | stop => exact ⟨hK, fun r hr => by cases hr⟩

/-- The routine is where the program is after `n` operations, and nobody closed or dropped the output. -/
structure Sync (P : L → Action V S L) (x₀ : Ideal V S L) (n : Nat) (w : World V S L) : Prop where
  requested : w.requested = false
  gone : w.gone = false
  closed : w.closed = none
  open_ : (x₀.after P n).closed = none
  items : (x₀.after P n).items = w.items
  rest : (x₀.after P n).rest = w.rest
  loc : (x₀.after P n).loc = w.loc

theorem free_act (hR : Runs P K x₀) (h : Inv orphaned P K x₀ w) {n : Nat} (hsync : Sync P x₀ n w)
    (hpc : w.pc = .running) :
    (((w.act (P w.loc)).pc = .running ∧ (w.act (P w.loc)).destroyed = w.destroyed ∧
        (w.act (P w.loc)).cancel = w.cancel) ∧ Sync P x₀ (n + 1) (w.act (P w.loc))) ∨
      (∃ r x item c q l, P w.loc = .tryRead r item c q l ∧ q = r ∧ l = w.loc ∧ w.readers[r]? = some x ∧
        x.available = false ∧ w.act (P w.loc) = { w with pc := .checking q, loc := l }) ∨
      ∃ s next, w.act (P w.loc) = { w with requested := true, pc := .closing s, loc := next } ∧
        (x₀.after P (n + 1)).closed = some s ∧ (x₀.after P (n + 1)).items = w.items ∧ P next = .stop := by
  obtain ⟨requested, gone, closed, open_, items, rest, loc⟩ := hsync
  have hstep : (x₀.after P (n + 1)) = (x₀.after P n).step P := rfl
  have hK := h.valid
  cases hP : P w.loc with
  | check no yes =>
    have horph : w.orphaned = false := by simp [World.orphaned, requested, gone]
    have hs : x₀.after P (n + 1) = { x₀.after P n with loc := no } := by
      rw [hstep]; unfold Ideal.step; rw [loc, hP]
    refine .inl ⟨⟨hpc, rfl, rfl⟩, requested, gone, closed, ?_, ?_, ?_, ?_⟩
    · rw [hs]; exact open_
    · rw [hs]; exact items
    · rw [hs]; exact rest
    · rw [hs]; simp [World.act, horph]
  | pure next =>
    have hs : x₀.after P (n + 1) = { x₀.after P n with loc := next } := by
      rw [hstep]; unfold Ideal.step; rw [loc, hP]
    refine .inl ⟨⟨hpc, rfl, rfl⟩, requested, gone, closed, ?_, ?_, ?_, ?_⟩
    · rw [hs]; exact open_
    · rw [hs]; exact items
    · rw [hs]; exact rest
    · rw [hs]; rfl
  | makeReader its ending next =>
    have hlen : (x₀.after P n).rest.length = w.readers.length := by rw [rest]; simp [World.rest]
    have hs : x₀.after P (n + 1) =
        { x₀.after P n with
          rest := (x₀.after P n).rest ++ [(its, ending)]
          loc := next (x₀.after P n).rest.length } := by
      rw [hstep]; unfold Ideal.step; rw [loc, hP]
    refine .inl ⟨⟨hpc, rfl, rfl⟩, requested, gone, closed, ?_, ?_, ?_, ?_⟩
    · rw [hs]; exact open_
    · rw [hs]; exact items
    · rw [hs]; simp [World.act, World.rest, rest]
    · rw [hs]; simp [World.act, hlen]
  | tryRead r item c q l =>
    obtain ⟨hlt, hq, hl, hi, hc⟩ := hR.valid.read hK hP
    cases read_case h.readable hlt item c q l with
    | item x v vs hx hrest hlen hrest' hw =>
      have hs : x₀.after P (n + 1) =
          { x₀.after P n with rest := (x₀.after P n).rest.set r (vs, x.ending), loc := item v } := by
        rw [hstep]; unfold Ideal.step; rw [loc, hP]; simp only [rest, hrest]
      refine .inl ⟨⟨?_, ?_, ?_⟩, ?_, ?_, ?_, ?_, ?_, ?_, ?_⟩
      · rw [hw]; exact hpc
      · rw [hw]
      · rw [hw]
      · rw [hw]; exact requested
      · rw [hw]; exact gone
      · rw [hw]; exact closed
      · rw [hs]; exact open_
      · rw [hs, hw]; exact items
      · rw [hs, hrest', ← rest]
      · rw [hs, hw]
    | closed x hx hrest hw =>
      have hs : x₀.after P (n + 1) = { x₀.after P n with loc := c x.ending } := by
        rw [hstep]; unfold Ideal.step; rw [loc, hP]; simp only [rest, hrest]
      rw [hw]
      refine .inl ⟨⟨hpc, rfl, rfl⟩, requested, gone, closed, ?_, ?_, ?_, ?_⟩
      · rw [hs]; exact open_
      · rw [hs]; exact items
      · rw [hs]; exact rest
      · rw [hs]
    | later x hx h1 h2 hw =>
      exact .inr (.inl ⟨r, x, item, c, q, l, rfl, hq, hl, hx, by simp [Input.available, h1, h2], hw⟩)
  | tryWrite v written failed =>
    have hw : w.act (.tryWrite v written failed) = { w with items := w.items ++ [v], loc := written } := by
      simp [World.act, closed, gone]
    have hs : x₀.after P (n + 1) = { x₀.after P n with items := (x₀.after P n).items ++ [v], loc := written } := by
      rw [hstep]; unfold Ideal.step; rw [loc, hP]
    rw [hw]
    refine .inl ⟨⟨hpc, rfl, rfl⟩, requested, gone, closed, ?_, ?_, ?_, ?_⟩
    · rw [hs]; exact open_
    · rw [hs]; simp [items]
    · rw [hs]; exact rest
    · rw [hs]
  | tryClose s next =>
    have hw : w.act (.tryClose s next) = { w with requested := true, pc := .closing s, loc := next } := by
      simp [World.act, requested]
    have hs : x₀.after P (n + 1) = { x₀.after P n with closed := some s, loc := next } := by
      rw [hstep]; unfold Ideal.step; rw [loc, hP]
    refine .inr (.inr ⟨s, next, hw, ?_, ?_, (hR.valid.close hK hP).2⟩)
    · rw [hs]
    · rw [hs]; exact items
  | stop =>
    have := hR.stop n (by rw [loc, hP])
    rw [open_] at this; cases this

theorem phase_act (hR : Runs P K x₀) (h : Inv orphaned P K x₀ w) (hpc : w.pc = .running) :
    Phase orphaned P x₀ (w.act (P w.loc)) := by
  cases h.phase with
  | free n requested gone closed destroyed cancel open_ items rest loc closing done =>
    have hcl : w.cancel ≠ .closing := by rw [cancel]; intro hc; cases hc
    obtain ⟨h1, h2⟩ | ⟨r, x, item, c, q, l, h1, h2, h3, h4, h5, h6⟩ | ⟨s, next, h1, h2, h3, h4⟩ :=
      free_act hR h ⟨requested, gone, closed, open_, items, rest, loc⟩ hpc
    · exact .free (n + 1) h2.requested h2.gone h2.closed (h1.2.1.trans destroyed) (h1.2.2.trans cancel) h2.open_
        h2.items h2.rest h2.loc (fun s hs => by rw [h1.1] at hs; cases hs) (fun hd => by rw [h1.1] at hd; cases hd)
    · rw [h6]
      exact .free n requested gone closed destroyed cancel open_ items rest (loc.trans h3.symm)
        (fun s hc => by cases hc) (fun hd => by cases hd)
    · rw [h1]
      exact .own (n + 1) s rfl hcl h2 h3 h4 (.inl ⟨rfl, closed, destroyed⟩)
  | own n s requested cancel ending items loc pc =>
    have hw : w.act (P w.loc) = { w with pc := .done } := by rw [loc]; rfl
    rw [hw]
    refine .own n s requested cancel ending items loc (.inr ?_)
    rcases pc with pc | pc
    · rw [hpc] at pc; cases pc.1
    · exact ⟨.inr rfl, pc.2⟩
  | dropped n gone closed items =>
    cases hP : P w.loc with
    | check no yes => exact .dropped n gone closed items
    | pure next => exact .dropped n gone closed items
    | makeReader its ending next => exact .dropped n gone closed items
    | tryRead r item c q l =>
      obtain ⟨hlt, hq, hl, hi, hc⟩ := hR.valid.read h.valid hP
      cases read_case h.readable hlt item c q l with
      | item x v vs hx hrest hlen hrest' hw => rw [hw]; exact .dropped n gone closed items
      | closed x hx hrest hw => rw [hw]; exact .dropped n gone closed items
      | later x hx h1 h2 hw => rw [hw]; exact .dropped n gone closed items
    | tryWrite v written failed =>
      have hw : w.act (.tryWrite v written failed) = { w with loc := failed } := by
        simp [World.act, gone]
      rw [hw]; exact .dropped n gone closed items
    | tryClose s next => simp only [World.act]; split <;> exact .dropped n gone closed items
    | stop => exact .dropped n gone closed items
  | cancelled s y requested status closing cancel late items rest loc =>
    have horph : w.orphaned = true := by simp [World.orphaned, requested]
    cases hP : P w.loc with
    | check no yes =>
      have := Late.step late (.check (no := no) (yes := yes) (by rw [loc]; exact hP))
      exact .cancelled s _ requested status closing cancel this items rest (by simp [World.act, horph])
    | pure next =>
      have := Late.step late (.pure (next := next) (by rw [loc]; exact hP))
      exact .cancelled s _ requested status closing cancel this items rest rfl
    | makeReader its ending next =>
      have := Late.step late (.make (by rw [loc]; exact hP))
      refine .cancelled s _ requested status closing cancel this items ?_ ?_
      · simp [World.act, World.rest, rest]
      · simp [World.act, World.rest, rest]
    | tryRead r item c q l =>
      obtain ⟨hlt, hq, hl, hi, hc⟩ := hR.valid.read h.valid hP
      cases read_case h.readable hlt item c q l with
      | item x v vs hx hrest hlen hrest' hw =>
        have := Late.step late (.item (by rw [loc]; exact hP) (by rw [rest]; exact hrest))
        refine .cancelled s _ ?_ ?_ ?_ ?_ this ?_ ?_ ?_
        · rw [hw]; exact requested
        · rw [hw]; exact status
        · rw [hw]; exact closing
        · rw [hw]; exact cancel
        · rw [hw]; exact items
        · rw [hrest', ← rest]
        · rw [hw]
      | closed x hx hrest hw =>
        have := Late.step late (.closed (by rw [loc]; exact hP) (by rw [rest]; exact hrest))
        rw [hw]
        exact .cancelled s _ requested status closing cancel this items rest rfl
      | later x hx h1 h2 hw =>
        rw [hw]
        exact .cancelled s _ requested status (fun s hc => by cases hc) cancel late items rest (loc.trans hl.symm)
    | tryWrite v written failed =>
      simp only [World.act]
      split
      · have := Late.step late (.failed (by rw [loc]; exact hP))
        exact .cancelled s _ requested status closing cancel this items rest rfl
      · have := Late.step late (.written (by rw [loc]; exact hP))
        exact .cancelled s _ requested status closing cancel this (by simp [items]) rest rfl
    | tryClose s' next =>
      have := Late.step late (.close (by rw [loc]; exact hP))
      have hw : w.act (.tryClose s' next) = { w with loc := next } := by simp [World.act, requested]
      rw [hw]
      exact .cancelled s _ requested status closing cancel this items rest rfl
    | stop => exact .cancelled s _ requested status (fun s hc => by cases hc) cancel late items rest loc
  | orphaned n requested pc cancel closed items why => rw [hpc] at pc; cases pc

/-- A change of the place of the routine that leaves all else. -/
theorem inv_pc (h : Inv orphaned P K x₀ w) (pc : Pc S) (hr : ∀ r, pc.reader = some r → r < w.readers.length)
    (hold : w.pc ≠ .running ∧ w.pc ≠ .done ∧ ∀ s, w.pc ≠ .closing s) (hnew : ∀ s, pc ≠ .closing s)
    (hdone : pc = .done → w.interrupted = true) :
    Inv orphaned P K x₀ { w with pc := pc } := by
  refine ⟨h.readable, h.valid, hr, ?_⟩
  cases h.phase with
  | free n requested gone closed destroyed cancel open_ items rest loc closing done =>
    refine .free n requested gone closed destroyed cancel open_ items rest loc hnew ?_
    intro hd
    have := hdone hd
    simpa [World.interrupted, World.orphaned, requested, gone] using this
  | own n s requested cancel ending items loc pc' =>
    rcases pc' with pc' | ⟨pc' | pc', _⟩
    · exact absurd pc'.1 (hold.2.2 s)
    · exact absurd pc' hold.1
    · exact absurd pc' hold.2.1
  | dropped n gone closed items => exact .dropped n gone closed items
  | cancelled s y requested status closing cancel late items rest loc =>
    exact .cancelled s y requested status hnew cancel late items rest loc
  | orphaned n requested pc' cancel closed items why => exact absurd pc' hold.2.1

theorem inv_subscribe (h : Inv orphaned P K x₀ w) {r : Nat} (hr : w.pc.reader = some r)
    (hold : w.pc ≠ .running ∧ w.pc ≠ .done ∧ ∀ s, w.pc ≠ .closing s) :
    Inv orphaned P K x₀ (w.subscribe r) := by
  unfold World.subscribe
  cases hx : w.readers[r]? with
  | none => exact h
  | some x =>
    simp only
    split
    · exact inv_pc h .called (fun r hr => by cases hr) hold (fun s hs => by cases hs) (fun hd => by cases hd)
    · refine inv_pc h (.waiting r) ?_ hold (fun s hs => by cases hs) (fun hd => by cases hd)
      intro r' hr'
      injection hr' with hr'
      exact hr' ▸ h.reader r hr

theorem inv_routine (hR : Runs P K x₀) (h : Inv orphaned P K x₀ w) : Inv orphaned P K x₀ (w.routine P) := by
  unfold World.routine
  cases hpc : w.pc with
  | starting =>
    refine inv_pc h _ ?_ ⟨by simp [hpc], by simp [hpc], by simp [hpc]⟩ ?_ ?_
    · split <;> (intro r hr; cases hr)
    · split <;> (intro s hs; cases hs)
    · cases hi : w.interrupted <;> simp
  | scheduled =>
    exact inv_pc h .running (fun r hr => by cases hr) ⟨by simp [hpc], by simp [hpc], by simp [hpc]⟩
      (fun s hs => by cases hs) (fun hd => by cases hd)
  | running =>
    have := reader_act hR.valid h.valid hpc h.readable
    exact ⟨readable_act h.readable _, this.1, this.2, phase_act hR h hpc⟩
  | closing s =>
    show Inv orphaned P K x₀ { w.close s with pc := .running }
    have hcl : (w.close s).readers = w.readers ∧ (w.close s).loc = w.loc := by
      unfold World.close; split <;> exact ⟨rfl, rfl⟩
    refine ⟨?_, ?_, (fun r hr => by cases hr), ?_⟩
    · show ∀ (r : Nat) (x : Input V S), (w.close s).readers[r]? = some x → Readable x
      rw [hcl.1]; exact h.readable
    · show K (w.close s).loc (w.close s).readers.length
      rw [hcl.1, hcl.2]; exact h.valid
    · cases h.phase with
      | free n requested gone closed destroyed cancel open_ items rest loc closing done =>
        exact absurd hpc (closing s)
      | own n s' requested cancel ending items loc pc =>
        rcases pc with ⟨pc, hcl, hd⟩ | ⟨pc | pc, _⟩
        · have hs : s = s' := by rw [hpc] at pc; injection pc
          subst hs
          unfold World.close
          by_cases hg : w.gone = true
          · rw [if_pos hg]
            exact .own n s requested cancel ending items loc (.inr ⟨.inl rfl, .inr ⟨hg, hcl⟩⟩)
          · rw [if_neg hg]
            exact .own n s requested cancel ending items loc (.inr ⟨.inl rfl, .inl rfl⟩)
        · rw [hpc] at pc; cases pc
        · rw [hpc] at pc; cases pc
      | dropped n gone closed items =>
        unfold World.close
        rw [if_pos gone]
        exact .dropped n gone closed items
      | cancelled s y requested status closing cancel late items rest loc => exact absurd hpc (closing _)
      | orphaned n requested pc' cancel closed items why => rw [hpc] at pc'; cases pc'
  | checking r =>
    refine inv_pc h _ ?_ ⟨by simp [hpc], by simp [hpc], by simp [hpc]⟩ ?_ ?_
    · have := h.reader r (by rw [hpc]; rfl)
      split
      · intro r hr; cases hr
      · intro r' hr'; injection hr' with hr'; exact hr' ▸ this
    · split <;> (intro s hs; cases hs)
    · cases hi : w.interrupted <;> simp
  | subscribing r =>
    exact inv_subscribe h (by rw [hpc]; rfl) ⟨by simp [hpc], by simp [hpc], by simp [hpc]⟩
  | waiting r =>
    exact inv_subscribe h (by rw [hpc]; rfl) ⟨by simp [hpc], by simp [hpc], by simp [hpc]⟩
  | called =>
    refine inv_pc h _ ?_ ⟨by simp [hpc], by simp [hpc], by simp [hpc]⟩ ?_ ?_
    · split <;> (intro r hr; cases hr)
    · split <;> (intro s hs; cases hs)
    · cases hi : w.interrupted <;> simp
  | done => exact h

theorem produce_same (x : Input V S) :
    x.produce.items = x.items ∧ x.produce.ending = x.ending ∧ x.produce.read = x.read := by
  unfold Input.produce; split <;> exact ⟨rfl, rfl, rfl⟩

theorem finish_same (x : Input V S) :
    x.finish.items = x.items ∧ x.finish.ending = x.ending ∧ x.finish.read = x.read := by
  unfold Input.finish; split <;> exact ⟨rfl, rfl, rfl⟩

theorem inv_step (hR : Runs P K x₀) (h : Inv orphaned P K x₀ w) (op : Op S) :
    Inv orphaned P K x₀ (step orphaned P w op) := by
  cases op with
  | produce r => exact inv_change h r _ (fun _ => readable_produce) produce_same
  | finish r => exact inv_change h r _ (fun _ => readable_finish) finish_same
  | routine => exact inv_routine hR h
  | drop =>
    refine ⟨h.readable, h.valid, h.reader, ?_⟩
    cases h.phase with
    | free n requested gone closed destroyed cancel open_ items rest loc closing done =>
      exact .dropped n rfl closed items
    | own n s requested cancel ending items loc pc =>
      refine .own n s requested cancel ending items loc ?_
      rcases pc with pc | ⟨pc, hc⟩
      · exact .inl pc
      · exact .inr ⟨pc, hc.imp id fun hc => ⟨rfl, hc.2⟩⟩
    | dropped n gone closed items => exact .dropped n rfl closed items
    | cancelled s y requested status closing cancel late items rest loc =>
      refine .cancelled s y requested status closing ?_ late items rest loc
      exact cancel.imp id fun hc => ⟨hc.1, hc.2.imp id fun hc => ⟨rfl, hc.2⟩⟩
    | orphaned n requested pc cancel closed items why =>
      exact .orphaned n requested pc cancel closed items why
  | cancel s =>
    simp only [step]
    split
    · exact h
    · rename_i hc
      refine ⟨h.readable, h.valid, h.reader, ?_⟩
      cases h.phase with
      | free n requested gone closed destroyed cancel open_ items rest loc closing done =>
        exact .free n requested gone closed destroyed cancel open_ items rest loc closing (fun _ => rfl)
      | own n s requested cancel ending items loc pc => exact .own n s requested cancel ending items loc pc
      | dropped n gone closed items => exact .dropped n gone closed items
      | cancelled s y requested status closing cancel late items rest loc =>
        rw [status] at hc; exact absurd rfl hc
      | orphaned n requested pc cancel closed items why =>
        exact .orphaned n requested pc cancel closed items rfl
  | cancelRequest =>
    simp only [step]
    by_cases hc : (w.cancelled.isSome && decide (w.cancel = .idle) && !w.destroyed) = true
    · rw [if_pos hc]
      simp only [Bool.and_eq_true, decide_eq_true_eq, Bool.not_eq_true'] at hc
      obtain ⟨⟨hc1, hc2⟩, hc3⟩ := hc
      refine ⟨?_, ?_, ?_, ?_⟩
      · split <;> exact h.readable
      · split <;> exact h.valid
      · split <;> exact h.reader
      · cases h.phase with
        | free n requested gone closed destroyed cancel open_ items rest loc closing done =>
          rw [if_neg (by simp [requested])]
          obtain ⟨s, hs⟩ := Option.isSome_iff_exists.mp hc1
          exact .cancelled s _ rfl hs closing (.inl ⟨rfl, closed⟩) (.start n open_) items rest loc
        | own n s requested cancel ending items loc pc =>
          rw [if_pos requested]
          exact .own n s requested (fun hc => by cases hc) ending items loc pc
        | dropped n gone closed items => split <;> exact .dropped n gone closed items
        | cancelled s y requested status closing cancel late items rest loc =>
          rcases cancel with cancel | cancel
          · rw [hc2] at cancel; cases cancel.1
          · rw [hc2] at cancel; cases cancel.1
        | orphaned n requested pc cancel closed items why =>
          rw [if_pos requested]
          exact .orphaned n requested pc (fun hc => by cases hc) closed items why
    · rw [if_neg hc]; exact h
  | cancelClose =>
    simp only [step]
    by_cases hc : w.cancel = .closing
    · rw [if_pos hc]
      cases hs : w.cancelled with
      | none => exact h
      | some s =>
        show Inv orphaned P K x₀ { w.close s with cancel := .done }
        have hcl : (w.close s).readers = w.readers ∧ (w.close s).loc = w.loc ∧ (w.close s).pc = w.pc := by
          unfold World.close; split <;> exact ⟨rfl, rfl, rfl⟩
        refine ⟨?_, ?_, ?_, ?_⟩
        · show ∀ (r : Nat) (x : Input V S), (w.close s).readers[r]? = some x → Readable x
          rw [hcl.1]; exact h.readable
        · show K (w.close s).loc (w.close s).readers.length
          rw [hcl.1, hcl.2.1]; exact h.valid
        · show ∀ r, (w.close s).pc.reader = some r → r < (w.close s).readers.length
          rw [hcl.1, hcl.2.2]; exact h.reader
        · cases h.phase with
          | free n requested gone closed destroyed cancel open_ items rest loc closing done =>
            rw [hc] at cancel; cases cancel
          | own n s requested cancel ending items loc pc => exact absurd hc cancel
          | dropped n gone closed items =>
            unfold World.close; rw [if_pos gone]; exact .dropped n gone closed items
          | cancelled s' y requested status closing cancel late items rest loc =>
            have hss : s' = s := by rw [hs] at status; injection status with h; exact h.symm
            subst hss
            rcases cancel with cancel | cancel
            · unfold World.close
              by_cases hg : w.gone = true
              · rw [if_pos hg]
                exact .cancelled s' y requested status closing (.inr ⟨rfl, .inr ⟨hg, cancel.2⟩⟩) late items rest loc
              · rw [if_neg hg]
                exact .cancelled s' y requested status closing (.inr ⟨rfl, .inl rfl⟩) late items rest loc
            · rw [hc] at cancel; cases cancel.1
          | orphaned n requested pc cancel closed items why => exact absurd hc cancel
    · rw [if_neg hc]; exact h
  | destroy =>
    simp only [step, World.destroy]
    by_cases hc : (w.pc.isDone && decide (w.cancel ≠ .closing) && !w.destroyed) = true
    · rw [if_pos hc]
      simp only [Bool.and_eq_true, decide_eq_true_eq, Bool.not_eq_true'] at hc
      obtain ⟨⟨hc1, hc2⟩, hc3⟩ := hc
      have hpc : w.pc = .done := by
        cases hp : w.pc <;> rw [hp] at hc1 <;> first | rfl | cases hc1
      by_cases hq : w.requested = true
      · rw [if_pos hq]
        refine ⟨h.readable, h.valid, h.reader, ?_⟩
        cases h.phase with
        | free n requested gone closed destroyed cancel open_ items rest loc closing done =>
          rw [hq] at requested; cases requested
        | own n s requested cancel ending items loc pc =>
          refine .own n s requested cancel ending items loc (.inr ?_)
          rcases pc with pc | pc
          · rw [hpc] at pc; cases pc.1
          · exact pc
        | dropped n gone closed items => exact .dropped n gone closed items
        | cancelled s y requested status closing cancel late items rest loc =>
          exact .cancelled s y requested status closing cancel late items rest loc
        | orphaned n requested pc cancel closed items why =>
          exact .orphaned n requested pc cancel closed items why
      · rw [if_neg hq]
        have hcl : (w.close orphaned).readers = w.readers ∧ (w.close orphaned).loc = w.loc ∧
            (w.close orphaned).pc = w.pc := by
          unfold World.close; split <;> exact ⟨rfl, rfl, rfl⟩
        refine ⟨?_, ?_, ?_, ?_⟩
        · show ∀ (r : Nat) (x : Input V S), (w.close orphaned).readers[r]? = some x → Readable x
          rw [hcl.1]; exact h.readable
        · show K (w.close orphaned).loc (w.close orphaned).readers.length
          rw [hcl.1, hcl.2.1]; exact h.valid
        · show ∀ r, (w.close orphaned).pc.reader = some r → r < (w.close orphaned).readers.length
          rw [hcl.1, hcl.2.2]; exact h.reader
        · cases h.phase with
          | free n requested gone closed destroyed cancel open_ items rest loc closing done =>
            unfold World.close
            rw [if_neg (by simp [gone])]
            exact .orphaned n rfl hpc hc2 rfl items (done hpc)
          | own n s requested cancel ending items loc pc => exact absurd requested hq
          | dropped n gone closed items =>
            unfold World.close; rw [if_pos gone]; exact .dropped n gone closed items
          | cancelled s y requested status closing cancel late items rest loc => exact absurd requested hq
          | orphaned n requested pc cancel closed items why => exact absurd requested hq
    · rw [if_neg hc]; exact h

theorem inv_run (hR : Runs P K x₀) (ops : List (Op S)) : ∀ {w : World V S L}, Inv orphaned P K x₀ w →
    Inv orphaned P K x₀ (run orphaned P w ops) := by
  induction ops with
  | nil => intro w h; exact h
  | cons op ops ih => intro w h; exact ih (inv_step hR h op)

end Steps

end Verif.StreamLoop
