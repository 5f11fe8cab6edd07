import Verif.StreamLoop.Lemmas

/-!
Routines make progress: what a routine that has nothing left to do has done, and how many steps it takes.
-/

namespace Verif.StreamLoop

open Verif.StreamChain (Input)

variable {V S L : Type} {orphaned : S} {P : L → Action V S L} {K : L → Nat → Prop} {x₀ : Ideal V S L}
  {w : World V S L}

theorem quiet_closed (h : Inv orphaned P K x₀ w) (hq : Quiet orphaned P w)
    (hended : ∀ x ∈ w.readers, x.ended = true) (hgone : w.gone = false) :
    (∃ n s, (x₀.after P n).closed = some s ∧ (x₀.after P n).items = w.items ∧ w.closed = some s) ∨
      (w.cancelled.isSome = true ∧ w.closed.isSome = true) := by
  obtain ⟨hb, hq1, hq2, hq3⟩ := hq
  have hdone : w.pc = .done := by
    unfold blocked at hb
    cases hpc : w.pc with
    | done => rfl
    | waiting r =>
      rw [hpc] at hb
      simp only at hb
      cases hx : w.readers[r]? with
      | none => rw [hx] at hb; cases hb
      | some x =>
        rw [hx] at hb
        simp [hended x (List.mem_of_getElem? hx)] at hb
    | starting => rw [hpc] at hb; cases hb
    | scheduled => rw [hpc] at hb; cases hb
    | running => rw [hpc] at hb; cases hb
    | closing s => rw [hpc] at hb; cases hb
    | checking r => rw [hpc] at hb; cases hb
    | subscribing r => rw [hpc] at hb; cases hb
    | called => rw [hpc] at hb; cases hb
  cases h.phase with
  | free n requested gone closed destroyed cancel open_ items rest loc closing done =>
    have := congrArg (fun w => w.destroyed) hq3
    simp [step, World.destroy, hdone, Pc.isDone, cancel, destroyed, requested] at this
  | own n s requested cancel ending items loc pc =>
    rcases pc with pc | ⟨pc, hc | hc⟩
    · rw [hdone] at pc; cases pc.1
    · exact .inl ⟨n, s, ending, items, hc⟩
    · rw [hgone] at hc; cases hc.1
  | dropped n gone closed items => rw [hgone] at gone; cases gone
  | cancelled s y requested status closing cancel late items rest loc =>
    rcases cancel with cancel | ⟨_, hc | hc⟩
    · have := congrArg (fun w => w.cancel) hq2
      simp [step, cancel.1, status] at this
    · exact .inr ⟨by rw [status]; rfl, by rw [hc]; rfl⟩
    · rw [hgone] at hc; cases hc.1
  | orphaned n requested pc cancel closed items why => exact .inr ⟨why, by rw [closed]; rfl⟩

/-- A bound for the operations of the hooks after the output was closed by someone else. -/
structure Rank (P : L → Action V S L) (rank : L → Nat) (top : Nat) : Prop where
  top : ∀ l, rank l ≤ top
  check : ∀ {l no yes}, P l = .check no yes → rank yes < rank l
  pure : ∀ {l next}, P l = .pure next → rank next < rank l
  make : ∀ {l items ending next} (m : Nat), P l = .makeReader items ending next → rank (next m) < rank l
  item : ∀ {l r item closed q l'} (v : V), P l = .tryRead r item closed q l' → rank (item v) < rank l
  closed : ∀ {l r item closed q l'} (s : S), P l = .tryRead r item closed q l' → rank (closed s) < rank l
  written : ∀ {l v written failed}, P l = .tryWrite v written failed → rank written < rank l
  failed : ∀ {l v written failed}, P l = .tryWrite v written failed → rank failed < rank l
  close : ∀ {l s next}, P l = .tryClose s next → rank next < rank l

/-- The steps left after the output was closed. -/
def lateSteps (rank : L → Nat) (pc : Pc S) (loc : L) : Nat :=
  match pc with
  | .done => 0
  | .starting => 1
  | .called => 1
  | .checking _ => 1
  | .waiting _ => 2
  | .subscribing _ => 3
  | .running => 2 * rank loc + 4
  | .closing _ => 2 * rank loc + 5
  | .scheduled => 2 * rank loc + 5

theorem late_le {rank : L → Nat} {top : Nat} (hK : Rank P rank top) (pc : Pc S) (l : L) :
    lateSteps rank pc l ≤ 2 * top + 5 := by
  have := hK.top l
  cases pc <;> simp only [lateSteps] <;> omega

theorem late_act {rank : L → Nat} {top : Nat} (hv : Valid P K) (hK : Rank P rank top)
    (h : Inv orphaned P K x₀ w) (ho : w.orphaned = true) (hpc : w.pc = .running) :
    (w.act (P w.loc)).orphaned = true ∧
      lateSteps rank (w.act (P w.loc)).pc (w.act (P w.loc)).loc < lateSteps rank w.pc w.loc := by
  rw [hpc]
  cases hP : P w.loc with
  | check no yes =>
    refine ⟨ho, ?_⟩
    have := hK.check hP
    simp only [World.act, ho, if_true, hpc, lateSteps]
    omega
  | pure next =>
    refine ⟨ho, ?_⟩
    have := hK.pure hP
    simp only [World.act, hpc, lateSteps]
    omega
  | makeReader items ending next =>
    refine ⟨ho, ?_⟩
    have := hK.make w.readers.length hP
    simp only [World.act, hpc, lateSteps]
    omega
  | tryRead r item c q l =>
    obtain ⟨hlt, _⟩ := hv.read h.valid hP
    cases read_case h.readable hlt item c q l with
    | item x v vs hx hrest hlen hrest' hw =>
      rw [hw]
      refine ⟨ho, ?_⟩
      have := hK.item v hP
      simp only [hpc, lateSteps]
      omega
    | closed x hx hrest hw =>
      rw [hw]
      refine ⟨ho, ?_⟩
      have := hK.closed x.ending hP
      simp only [hpc, lateSteps]
      omega
    | later x hx h1 h2 hw =>
      rw [hw]
      refine ⟨ho, ?_⟩
      simp only [lateSteps]
      omega
  | tryWrite v written failed =>
    have := hK.written hP
    have := hK.failed hP
    simp only [World.act]
    split
    · refine ⟨ho, ?_⟩
      simp only [hpc, lateSteps]
      omega
    · refine ⟨ho, ?_⟩
      simp only [hpc, lateSteps]
      omega
  | tryClose s next =>
    have := hK.close hP
    simp only [World.act]
    split
    · refine ⟨ho, ?_⟩
      simp only [hpc, lateSteps]
      omega
    · refine ⟨by simp [World.orphaned], ?_⟩
      simp only [lateSteps]
      omega
  | stop =>
    refine ⟨ho, ?_⟩
    simp only [World.act, lateSteps]
    omega

theorem late_subscribe {rank : L → Nat} (h : Inv orphaned P K x₀ w) {r : Nat} (hr : w.pc.reader = some r)
    (hb : blocked w = false) (hpc : w.pc = .subscribing r ∨ w.pc = .waiting r) :
    (w.subscribe r).orphaned = w.orphaned ∧
      lateSteps rank (w.subscribe r).pc (w.subscribe r).loc < lateSteps rank w.pc w.loc := by
  have hlt := h.reader r hr
  obtain ⟨x, hx⟩ : ∃ x, w.readers[r]? = some x := ⟨_, List.getElem?_eq_getElem hlt⟩
  unfold World.subscribe
  rw [hx]
  simp only
  by_cases ha : x.available = true
  · rw [if_pos ha]
    refine ⟨rfl, ?_⟩
    rcases hpc with hpc | hpc <;> rw [hpc] <;> simp only [lateSteps] <;> omega
  · rw [if_neg ha]
    refine ⟨rfl, ?_⟩
    rcases hpc with hpc | hpc
    · rw [hpc]; simp only [lateSteps]; omega
    · exfalso
      have hxr := (h.readable r x hx).read
      unfold blocked at hb
      rw [hpc] at hb
      simp only [hx] at hb
      apply ha
      unfold Input.available
      cases he : x.ended
      · have : x.read ≠ x.ready := by simpa [he] using hb
        have : x.read < x.ready := by omega
        simp [this]
      · simp

theorem late_routine {rank : L → Nat} {top : Nat} (hv : Valid P K) (hK : Rank P rank top)
    (h : Inv orphaned P K x₀ w) (ho : w.orphaned = true) (hb : blocked w = false) :
    (w.routine P).orphaned = true ∧
      lateSteps rank (w.routine P).pc (w.routine P).loc < lateSteps rank w.pc w.loc := by
  have hi : w.interrupted = true := by simp [World.interrupted, ho]
  unfold World.routine
  cases hpc : w.pc with
  | starting => exact ⟨ho, by simp [hi, lateSteps]⟩
  | scheduled => exact ⟨ho, by simp [lateSteps]⟩
  | running =>
    have := late_act (rank := rank) hv hK h ho hpc
    rw [hpc] at this
    exact this
  | closing s =>
    show (w.close s).orphaned = true ∧ lateSteps rank .running (w.close s).loc < _
    have : (w.close s).orphaned = w.orphaned ∧ (w.close s).loc = w.loc := by
      unfold World.close; split <;> exact ⟨rfl, rfl⟩
    rw [this.1, this.2]
    exact ⟨ho, by simp only [lateSteps]; omega⟩
  | checking r => exact ⟨ho, by simp [hi, lateSteps]⟩
  | subscribing r =>
    have := late_subscribe (rank := rank) h (by rw [hpc]; rfl) hb (.inl hpc)
    rw [ho, hpc] at this
    exact this
  | waiting r =>
    have := late_subscribe (rank := rank) h (by rw [hpc]; rfl) hb (.inr hpc)
    rw [ho, hpc] at this
    exact this
  | called => exact ⟨ho, by simp [hi, lateSteps]⟩
  | done => unfold blocked at hb; rw [hpc] at hb; cases hb

theorem blocked_routine (hb : blocked w = true) : w.routine P = w := by
  unfold blocked at hb
  unfold World.routine
  cases hpc : w.pc with
  | done => rfl
  | waiting r =>
    rw [hpc] at hb
    simp only at hb
    cases hx : w.readers[r]? with
    | none => rw [hx] at hb; cases hb
    | some x =>
      rw [hx] at hb
      simp only [Bool.and_eq_true, decide_eq_true_eq, Bool.not_eq_true'] at hb
      have ha : x.available = false := by simp [Input.available, hb.1, hb.2]
      simp only [World.subscribe, hx, ha]
      rw [← hpc]
      rfl
  | starting => rw [hpc] at hb; cases hb
  | scheduled => rw [hpc] at hb; cases hb
  | running => rw [hpc] at hb; cases hb
  | closing s => rw [hpc] at hb; cases hb
  | checking r => rw [hpc] at hb; cases hb
  | subscribing r => rw [hpc] at hb; cases hb
  | called => rw [hpc] at hb; cases hb

/-- What a step does not undo. -/
theorem orphaned_other (op : Op S) (ho : w.orphaned = true) (hop : op ≠ .routine) :
    (step orphaned P w op).orphaned = true ∧ (step orphaned P w op).pc = w.pc ∧
      (step orphaned P w op).loc = w.loc := by
  cases op with
  | routine => exact absurd rfl hop
  | produce r => simp only [step, World.change]; split <;> exact ⟨ho, rfl, rfl⟩
  | finish r => simp only [step, World.change]; split <;> exact ⟨ho, rfl, rfl⟩
  | drop => exact ⟨by simp [step, World.orphaned], rfl, rfl⟩
  | cancel s => simp only [step]; split <;> exact ⟨ho, rfl, rfl⟩
  | cancelRequest =>
    simp only [step]
    split
    · split
      · exact ⟨ho, rfl, rfl⟩
      · exact ⟨by simp [World.orphaned], rfl, rfl⟩
    · exact ⟨ho, rfl, rfl⟩
  | cancelClose =>
    simp only [step]
    split
    · split
      · exact ⟨ho, rfl, rfl⟩
      · unfold World.close; split <;> exact ⟨ho, rfl, rfl⟩
    · exact ⟨ho, rfl, rfl⟩
  | destroy =>
    simp only [step, World.destroy]
    split
    · split
      · exact ⟨ho, rfl, rfl⟩
      · unfold World.close
        split <;> exact ⟨by simp [World.orphaned], rfl, rfl⟩
    · exact ⟨ho, rfl, rfl⟩

theorem work_routine (ops : List (Op S)) : work orphaned P w (.routine :: ops) =
    (if blocked w then 0 else 1) + work orphaned P (w.routine P) ops := rfl

theorem work_other (op : Op S) (ops : List (Op S)) (hop : op ≠ .routine) :
    work orphaned P w (op :: ops) = work orphaned P (step orphaned P w op) ops := by
  cases op <;> first | rfl | exact absurd rfl hop

theorem others_other (op : Op S) (ops : List (Op S)) (hop : op ≠ .routine) :
    others (op :: ops) = others ops + 1 := by
  cases op <;> first | rfl | exact absurd rfl hop

open Classical in
theorem is_routine (op : Op S) : op = .routine ∨ op ≠ .routine := Classical.em _

/-- After the output was closed or dropped, a routine ends soon. -/
theorem late_work {rank : L → Nat} {top : Nat} (hR : Runs P K x₀) (hK : Rank P rank top) (ops : List (Op S)) :
    ∀ {w : World V S L}, Inv orphaned P K x₀ w → w.orphaned = true →
      work orphaned P w ops ≤ lateSteps rank w.pc w.loc := by
  induction ops with
  | nil => intro w _ _; exact Nat.zero_le _
  | cons op ops ih =>
    intro w h ho
    rcases is_routine op with hop | hop
    · subst hop
      rw [work_routine]
      by_cases hb : blocked w = true
      · rw [if_pos hb, blocked_routine hb]
        have := ih h ho
        omega
      · rw [if_neg hb]
        have h1 := late_routine hR.valid hK h ho (by simpa using hb)
        have h2 := ih (inv_routine hR h) h1.1
        omega
    · rw [work_other op ops hop]
      have h1 := orphaned_other (orphaned := orphaned) (P := P) op ho hop
      have h2 := ih (inv_step hR h op) h1.1
      rw [h1.2.1, h1.2.2] at h2
      exact h2

/-- Whether an operation of the hooks finds something to read. -/
def ready (w : World V S L) : Action V S L → Bool
  | .tryRead r _ _ _ _ =>
    match w.readers[r]? with
    | none => false
    | some x => x.available
  | _ => true

/-- The steps of the routine until the next operation of the program. -/
def pcSteps (pc : Pc S) (ready : Bool) : Nat :=
  match pc, ready with
  | .done, _ => 0
  | .closing _, _ => 0
  | .running, true => 1
  | .scheduled, true => 2
  | .called, true => 3
  | .starting, true => 3
  | .waiting _, true => 4
  | .subscribing _, true => 4
  | .checking _, true => 5
  | .waiting _, false => 0
  | .subscribing _, false => 1
  | .checking _, false => 2
  | .running, false => 3
  | .scheduled, false => 4
  | .called, false => 5
  | .starting, false => 5

theorem pc_le (pc : Pc S) (b : Bool) : pcSteps pc b ≤ 5 := by
  cases pc <;> cases b <;> simp [pcSteps]

/-- The steps that are left. -/
inductive Left (P : L → Action V S L) (x₀ : Ideal V S L) (rank : L → Nat) (top limit : Nat) (w : World V S L)
    (k : Nat) : Prop
  | late (orphaned : w.orphaned = true) (le : lateSteps rank w.pc w.loc ≤ k)
  | sync (n : Nat) (sync : Sync P x₀ n w) (wait : ∀ r, w.pc.reader = some r →
        ∃ item c, P w.loc = .tryRead r item c r w.loc)
      (le : (2 * top + 8) * (limit - n) + pcSteps w.pc (ready w (P w.loc)) ≤ k)

theorem left_step {rank : L → Nat} {top limit k : Nat} (hR : Runs P K x₀) (hK : Rank P rank top)
    (hlimit : ∀ n, (x₀.after P n).closed = none → n < limit) (h : Inv orphaned P K x₀ w)
    (hl : Left P x₀ rank top limit w k) (hb : blocked w = false) :
    ∃ k', k' < k ∧ Left P x₀ rank top limit (w.routine P) k' := by
  cases hl with
  | late ho hle =>
    have h1 := late_routine hR.valid hK h ho hb
    exact ⟨_, Nat.lt_of_lt_of_le h1.2 hle, .late h1.1 (Nat.le_refl _)⟩
  | sync n hs hwait hle =>
    have hn := hlimit n hs.open_
    obtain ⟨d, hd⟩ : ∃ d, limit - n = d + 1 := ⟨limit - n - 1, by omega⟩
    have hd' : limit - (n + 1) = d := by omega
    have hmul : (2 * top + 8) * (limit - n) = (2 * top + 8) * d + (2 * top + 8) := by rw [hd, Nat.mul_succ]
    -- a step that only changes the place of the routine
    have hmove : ∀ pc : Pc S, (∀ r, pc.reader = some r → w.pc.reader = some r) →
        pcSteps pc (ready w (P w.loc)) < pcSteps w.pc (ready w (P w.loc)) →
        ∃ k', k' < k ∧ Left P x₀ rank top limit { w with pc := pc } k' := by
      intro pc hr hlt
      refine ⟨_, ?_, .sync n ⟨hs.requested, hs.gone, hs.closed, hs.open_, hs.items, hs.rest, hs.loc⟩ ?_
        (Nat.le_refl _)⟩
      · show (2 * top + 8) * (limit - n) + pcSteps pc (ready w (P w.loc)) < k
        omega
      · intro r hr'; exact hwait r (hr r hr')
    unfold World.routine
    cases hpc : w.pc with
    | starting =>
      apply hmove
      · intro r hr; split at hr <;> cases hr
      · rw [hpc]; split <;> cases ready w (P w.loc) <;> simp [pcSteps]
    | scheduled =>
      apply hmove
      · intro r hr; cases hr
      · rw [hpc]; cases ready w (P w.loc) <;> simp [pcSteps]
    | running =>
      show ∃ k', k' < k ∧ Left P x₀ rank top limit (w.act (P w.loc)) k'
      obtain ⟨h1, h2⟩ | ⟨r, x, item, c, q, l, h1, h2, h3, h4, h5, h6⟩ | ⟨s, next, h1, h2, h3, h4⟩ :=
        free_act hR h hs hpc
      · refine ⟨_, ?_, .sync (n + 1) h2 ?_ (Nat.le_refl _)⟩
        · rw [hd']
          have := pc_le (w.act (P w.loc)).pc (ready (w.act (P w.loc)) (P (w.act (P w.loc)).loc))
          omega
        · rw [h1.1]; intro r hr; cases hr
      · rw [h6]
        subst h2 h3
        have hnr : ready w (P w.loc) = false := by rw [h1]; simp [ready, h4, h5]
        refine ⟨_, ?_, .sync n ⟨hs.requested, hs.gone, hs.closed, hs.open_, hs.items, hs.rest, hs.loc⟩ ?_
          (Nat.le_refl _)⟩
        · show (2 * top + 8) * (limit - n) + pcSteps (.checking q) (ready w (P w.loc)) < k
          rw [hpc] at hle
          rw [hnr] at hle ⊢
          simp only [pcSteps] at hle ⊢
          omega
        · intro r hr
          injection hr with hr
          subst hr
          exact ⟨item, c, h1⟩
      · rw [h1]
        refine ⟨_, ?_, .late (by simp [World.orphaned]) (Nat.le_refl _)⟩
        have := late_le hK (.closing s : Pc S) next
        show lateSteps rank (.closing s) next < k
        omega
    | closing s =>
      exfalso
      cases h.phase with
      | free n requested gone closed destroyed cancel open_ items rest loc closing done =>
        exact absurd hpc (closing s)
      | own n s' requested cancel ending items loc pc =>
        rw [hs.requested] at requested; cases requested
      | dropped n gone closed items => rw [hs.gone] at gone; cases gone
      | cancelled s' y requested status closing cancel late items rest loc =>
        rw [hs.requested] at requested; cases requested
      | orphaned n requested pc cancel closed items why =>
        rw [hs.requested] at requested; cases requested
    | checking r =>
      apply hmove
      · intro r' hr'
        split at hr'
        · cases hr'
        · rw [hpc]; exact hr'
      · rw [hpc]; split <;> cases ready w (P w.loc) <;> simp [pcSteps]
    | subscribing r =>
      obtain ⟨item, c, hP⟩ := hwait r (by rw [hpc]; rfl)
      obtain ⟨x, hx⟩ : ∃ x, w.readers[r]? = some x :=
        ⟨_, List.getElem?_eq_getElem (h.reader r (by rw [hpc]; rfl))⟩
      have hready : ready w (P w.loc) = x.available := by rw [hP]; simp [ready, hx]
      simp only [World.subscribe, hx]
      cases ha : x.available with
      | true =>
        apply hmove
        · intro r hr; cases hr
        · rw [hpc, hready, ha]; simp [pcSteps]
      | false =>
        apply hmove
        · intro r hr; rw [hpc]; exact hr
        · rw [hpc, hready, ha]; simp [pcSteps]
    | waiting r =>
      obtain ⟨item, c, hP⟩ := hwait r (by rw [hpc]; rfl)
      obtain ⟨x, hx⟩ : ∃ x, w.readers[r]? = some x :=
        ⟨_, List.getElem?_eq_getElem (h.reader r (by rw [hpc]; rfl))⟩
      have hready : ready w (P w.loc) = x.available := by rw [hP]; simp [ready, hx]
      simp only [World.subscribe, hx]
      cases ha : x.available with
      | true =>
        apply hmove
        · intro r hr; cases hr
        · rw [hpc, hready, ha]; simp [pcSteps]
      | false =>
        exfalso
        have hxr := (h.readable r x hx).read
        unfold blocked at hb
        rw [hpc] at hb
        simp only [hx] at hb
        unfold Input.available at ha
        simp only [Bool.or_eq_false_iff, decide_eq_false_iff_not] at ha
        have : x.read = x.ready := by omega
        simp [this, ha.2] at hb
    | called =>
      apply hmove
      · intro r hr; split at hr <;> cases hr
      · rw [hpc]; split <;> cases ready w (P w.loc) <;> simp [pcSteps]
    | done => unfold blocked at hb; rw [hpc] at hb; cases hb

theorem sync_change {n : Nat} (hs : Sync P x₀ n w) (r : Nat) (f : Input V S → Input V S)
    (hsame : ∀ x, (f x).items = x.items ∧ (f x).ending = x.ending ∧ (f x).read = x.read) :
    Sync P x₀ n (w.change r f) ∧ (w.change r f).pc = w.pc ∧ (w.change r f).loc = w.loc := by
  unfold World.change
  cases hx : w.readers[r]? with
  | none => exact ⟨hs, rfl, rfl⟩
  | some x =>
    obtain ⟨h1, h2, h3⟩ := hsame x
    have hrest := rest_set hx h1 h2 h3
    exact ⟨⟨hs.requested, hs.gone, hs.closed, hs.open_, hs.items, hs.rest.trans hrest.symm, hs.loc⟩, rfl, rfl⟩

theorem left_other {rank : L → Nat} {top limit k : Nat} (hK : Rank P rank top) (op : Op S)
    (h : Inv orphaned P K x₀ w) (hl : Left P x₀ rank top limit w k) (hop : op ≠ .routine) :
    Left P x₀ rank top limit (step orphaned P w op) (k + (2 * top + 8)) := by
  cases hl with
  | late ho hle =>
    have h1 := orphaned_other (orphaned := orphaned) (P := P) op ho hop
    refine .late h1.1 ?_
    rw [h1.2.1, h1.2.2]; omega
  | sync n hs hwait hle =>
    have hlate : ∀ w' : World V S L, w'.orphaned = true →
        Left P x₀ rank top limit w' (k + (2 * top + 8)) := by
      intro w' ho
      have := late_le hK w'.pc w'.loc
      exact .late ho (by omega)
    have hsync : ∀ w' : World V S L, Sync P x₀ n w' → w'.pc = w.pc → w'.loc = w.loc →
        Left P x₀ rank top limit w' (k + (2 * top + 8)) := by
      intro w' hs' hpc hloc
      refine .sync n hs' ?_ ?_
      · rw [hpc, hloc]; exact hwait
      · have := pc_le w'.pc (ready w' (P w'.loc))
        omega
    cases op with
    | routine => exact absurd rfl hop
    | produce r =>
      have := sync_change hs r Input.produce produce_same
      exact hsync _ this.1 this.2.1 this.2.2
    | finish r =>
      have := sync_change hs r Input.finish finish_same
      exact hsync _ this.1 this.2.1 this.2.2
    | drop => exact hlate _ (by simp [step, World.orphaned])
    | cancel s =>
      simp only [step]
      split
      · exact hsync _ hs rfl rfl
      · exact hsync _ ⟨hs.requested, hs.gone, hs.closed, hs.open_, hs.items, hs.rest, hs.loc⟩ rfl rfl
    | cancelRequest =>
      simp only [step]
      split
      · split
        · exact hsync _ ⟨hs.requested, hs.gone, hs.closed, hs.open_, hs.items, hs.rest, hs.loc⟩ rfl rfl
        · exact hlate _ (by simp [World.orphaned])
      · exact hsync _ hs rfl rfl
    | cancelClose =>
      have hc : w.cancel = .idle := by
        cases h.phase with
        | free n requested gone closed destroyed cancel open_ items rest loc closing done => exact cancel
        | own n s' requested cancel ending items loc pc => rw [hs.requested] at requested; cases requested
        | dropped n gone closed items => rw [hs.gone] at gone; cases gone
        | cancelled s' y requested status closing cancel late items rest loc =>
          rw [hs.requested] at requested; cases requested
        | orphaned n requested pc cancel closed items why => rw [hs.requested] at requested; cases requested
      simp only [step]
      rw [if_neg (by rw [hc]; intro h; cases h)]
      exact hsync _ hs rfl rfl
    | destroy =>
      simp only [step, World.destroy]
      split
      · split
        · exact hsync _ ⟨hs.requested, hs.gone, hs.closed, hs.open_, hs.items, hs.rest, hs.loc⟩ rfl rfl
        · exact hlate _ (by unfold World.close; split <;> simp [World.orphaned])
      · exact hsync _ hs rfl rfl

theorem left_work {rank : L → Nat} {top limit : Nat} (hR : Runs P K x₀) (hK : Rank P rank top)
    (hlimit : ∀ n, (x₀.after P n).closed = none → n < limit) (ops : List (Op S)) :
    ∀ {w : World V S L} {k : Nat}, Inv orphaned P K x₀ w → Left P x₀ rank top limit w k →
      work orphaned P w ops ≤ k + (2 * top + 8) * others ops := by
  induction ops with
  | nil => intro w k _ _; exact Nat.zero_le _
  | cons op ops ih =>
    intro w k h hl
    rcases is_routine op with hop | hop
    · subst hop
      rw [work_routine]
      by_cases hb : blocked w = true
      · rw [if_pos hb, blocked_routine hb]
        have := ih h hl
        show 0 + _ ≤ k + (2 * top + 8) * others ops
        omega
      · rw [if_neg hb]
        obtain ⟨k', hk', hl'⟩ := left_step hR hK hlimit h hl (by simpa using hb)
        have h2 := ih (inv_routine hR h) hl'
        show 1 + _ ≤ k + (2 * top + 8) * others ops
        omega
    · rw [work_other op ops hop, others_other op ops hop]
      have h2 := ih (inv_step hR h op) (left_other hK op h hl hop)
      rw [Nat.mul_succ]
      omega

/-- The number of steps of a routine. -/
theorem starts_work {rank : L → Nat} {top limit : Nat} (hR : Runs P K x₀) (hK : Rank P rank top)
    (hlimit : ∀ n, (x₀.after P n).closed = none → n < limit) (hs : Starts P K x₀ w) (ops : List (Op S)) :
    work orphaned P w ops ≤ (2 * top + 8) * (limit + 1 + others ops) := by
  have hl : Left P x₀ rank top limit w ((2 * top + 8) * limit + 5) := by
    refine .sync 0 ⟨hs.requested, hs.gone, hs.closed, hs.open_, hs.items, hs.rest, hs.loc⟩ ?_ ?_
    · intro r hr; rw [hs.pc] at hr; cases hr
    · have := pc_le w.pc (ready w (P w.loc))
      simp only [Nat.sub_zero]
      omega
  have := left_work hR hK hlimit ops (inv_starts (orphaned := orphaned) hs) hl
  rw [Nat.mul_add, Nat.mul_add, Nat.mul_one]
  omega

end Verif.StreamLoop
