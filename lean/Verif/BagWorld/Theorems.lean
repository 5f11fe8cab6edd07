import Verif.BagWorld.Steps
/-
C56 to C58: data bags as users see them.

`read w h o attr` is what is read as attribute `attr` of the object `o` from bag
`h`: `none` if nobody knows anything, `some none` if the attribute was removed, and
`some (some v)` for a value.  `Reach w` says that `w` is the world after some
history of operations.
-/

namespace Verif.BagWorld

open Verif.BagAttr

/-! ### C56: bags are independent of each other -/

private theorem unfold_target {w w' : World} {op : Op} (hs : Stepped w w' op) (hok : Ok w) {h : Nat}
    (hh : IsBag w h) (ht : op.target ≠ some h ∨ Immutable w h) : ReadsAs w' h w h := by
  obtain ⟨t, hk, htm⟩ := hs.keeps
  intro x attr
  refine hk.read hok hh ?_ ?_ x attr
  · intro hth
    obtain ⟨h1, d, hd, h2⟩ := htm h hth
    rcases ht with ht | ⟨d', hd', h3⟩
    · exact ht h1
    · rw [hd] at hd'
      rw [← Option.some.inj hd', h2] at h3
      cases h3
  · intro k d hk hd
    obtain ⟨_, d', hd', h2⟩ := htm k hk
    rw [hd] at hd'
    rw [Option.some.inj hd']
    exact h2

/-- An operation changes what is read from the bag it modifies, and from no other
bag, however the bags were made from each other. -/
theorem C56_isolated {w : World} (hr : Reach w) {same : SameSources} (hsame : SameOk same)
    {crash : Bag → Bag} (hc : CrashOk crash) {op : Op} (hv : op.Valid w) {h : Nat} (hh : IsBag w h)
    (ht : op.target ≠ some h ∨ Immutable w h) :
    ReadsAs (step same crash w op).1 h w h :=
  unfold_target (step_ok hsame hc hr.ok hv) hr.ok hh ht

private theorem Later.reach {w w' : World} (hl : Later w w') (hr : Reach w) : Reach w' := by
  induction hl with
  | refl => exact hr
  | step _ h1 h2 h3 ih => exact .step ih h1 h2 h3

/-- An immutable bag stays immutable, and what is read from it never changes. -/
theorem C56_immutable {w w' : World} (hr : Reach w) (hl : Later w w') {h : Nat} (hi : Immutable w h) :
    Immutable w' h ∧ ReadsAs w' h w h := by
  induction hl with
  | refl => exact ⟨hi, fun _ _ => rfl⟩
  | step hl h1 h2 h3 ih =>
    obtain ⟨⟨d, hd, hm⟩, hsame⟩ := ih
    have hr' := Later.reach hl hr
    have hs := step_ok h1 h2 hr'.ok h3
    constructor
    · obtain ⟨t, hk, _⟩ := hs.keeps
      obtain ⟨d', a1, _, a2, _⟩ := hk.bag h d hd
      exact ⟨d', a1, a2 hm⟩
    · intro x attr
      rw [unfold_target hs hr'.ok (lt_of_get hd) (.inr ⟨d, hd, hm⟩) x attr, hsame x attr]

/-- A mutable bag stays mutable, unless it is made immutable. -/
theorem C56_mutable {w : World} (hr : Reach w) {same : SameSources} (hsame : SameOk same)
    {crash : Bag → Bag} (hc : CrashOk crash) {op : Op} (hv : op.Valid w) {h : Nat} (hm : Mutable w h)
    (hop : op ≠ .makeImmutable h) : Mutable (step same crash w op).1 h := by
  obtain ⟨d, hd, hm⟩ := hm
  obtain ⟨t, hk, _⟩ := (step_ok hsame hc hr.ok hv).keeps
  obtain ⟨d', a1, _, _, a2⟩ := hk.bag h d hd
  refine ⟨d', a1, (a2 ?_).trans hm⟩
  intro he
  cases op with
  | makeImmutable k => exact hop (by cases he; rfl)
  | _ => cases he

/-- An operation that does not modify a bag does nothing if it fails. -/
theorem C56_failed (same : SameSources) (crash : Bag → Bag) (w : World) (op : Op)
    (ht : op.target = none) {e : WErr} (he : (step same crash w op).2 = some e) :
    (step same crash w op).1 = w := by
  have key : ∀ r : Except WErr World, (okOr w r).2 = some e → (okOr w r).1 = w := by
    intro r hr
    cases r with
    | ok w' => cases hr
    | error e' => rfl
  cases op with
  | newBag m => cases he
  | write h op => cases ht
  | merge h o p => cases ht
  | _ => exact key _ he

/-- A modification of a mutable bag does to it what the function of `Verif.BagAttr`
(see C52) does to a bag that reads the same; if it fails, it fails with the same error. -/
theorem C56_write {w : World} (hr : Reach w) {crash : Bag → Bag} (hc : CrashOk crash) {h : Nat}
    (hm : Mutable w h) {op : WriteOp} (hv : (Op.write h op).Valid w) :
    ∃ b : Bag, b.WF ∧ b.frozen = false ∧ op.Valid b ∧
      (∀ x attr, getWithRemoved [b] x attr = read w h x attr) ∧
      ((∃ b', op.run b = .ok b' ∧ (write w h op crash).2 = none ∧
          ∀ x attr, read (write w h op crash).1 h x attr = getWithRemoved [b'] x attr) ∨
        (∃ e, op.run b = .error e ∧ (write w h op crash).2 = some (.impl e))) := by
  obtain ⟨d, hd, hm⟩ := hm
  have hfb := hr.ok.fb h d hd hm
  obtain ⟨b, h1, h2, h3, h4, b', hdid, hres⟩ := write_ok hr.ok hd hm hc hv
  refine ⟨b, h1, h2, h3, fun x attr => by rw [one_lookup, h4, read_nofb hd hfb], ?_⟩
  rcases hres with ⟨g1, g2⟩ | ⟨e, g1, g2, _⟩
  · refine .inl ⟨b', g1, g2, fun x attr => ?_⟩
    obtain ⟨d', a1, a2, _⟩ := hdid.keeps.bag h d hd
    rw [one_lookup, read_nofb a1 (a2.trans hfb), hdid.look]
  · exact .inr ⟨e, g1, g2⟩

/-- Setting an attribute of an object in a mutable bag: it reads as the value that
was set, and everything else, in all bags, reads as before. -/
theorem C56_set {w : World} (hr : Reach w) {crash : Bag → Bag} (hc : CrashOk crash) {h : Nat}
    (hm : Mutable w h) {o : Obj} (ho : o.Valid) (attr : Attr) (v : Item) :
    (write w h (.setAttr (.object o) attr v) crash).2 = none ∧
    read (write w h (.setAttr (.object o) attr v) crash).1 h o attr = some v ∧
    ∀ h' o' attr', IsBag w h' → o'.Valid → ¬ (h' = h ∧ o' = o ∧ attr' = attr) →
      read (write w h (.setAttr (.object o) attr v) crash).1 h' o' attr' = read w h' o' attr' := by
  have hv : (Op.write h (.setAttr (.object o) attr v)).Valid w := by
    intro b _ x hx; cases hx; exact ho
  obtain ⟨b, h1, h2, h3, h4, hres⟩ := C56_write hr hc hm hv
  obtain ⟨b1, e1, _, r1, _, r3⟩ := C52_set h1 h2 ho attr v
  rcases hres with ⟨b', g1, g2, g3⟩ | ⟨e, g1, _⟩
  · have : b1 = b' := by
      unfold WriteOp.run at g1; simp only at g1; rw [e1] at g1; exact Except.ok.inj g1
    subst this
    refine ⟨g2, by rw [g3, r1], ?_⟩
    intro h' o' attr' hh' ho' hne
    by_cases hhh : h' = h
    · subst hhh
      rw [g3, r3 [] o' attr' ho' (fun hx => hne ⟨rfl, hx⟩), h4]
    · exact C56_isolated hr (same := fun _ _ => false) (fun _ _ h => by cases h) hc hv hh'
        (.inl (fun hx => hhh (Option.some.inj hx).symm)) o' attr'
  · unfold WriteOp.run at g1; simp only at g1; rw [e1] at g1; cases g1

private theorem write_other {w : World} (hr : Reach w) {crash : Bag → Bag} (hc : CrashOk crash) {h : Nat}
    {op : WriteOp} (hv : (Op.write h op).Valid w) {h' : Nat} (hh : IsBag w h') (hne : h' ≠ h)
    (o : Obj) (attr : Attr) : read (write w h op crash).1 h' o attr = read w h' o attr :=
  C56_isolated hr (same := fun _ _ => false) (fun _ _ h => by cases h) hc hv hh
    (.inl (fun hx => hne (Option.some.inj hx).symm)) o attr

private theorem getAttr_one {b : Bag} {o : Obj} {attr : Attr} {v : Item}
    (h : getAttr [b] (.object o) attr = .ok v) : (getWithRemoved [b] o attr).getD none = v := by
  unfold getAttr at h
  exact Except.ok.inj h

/-- Setting an attribute of a slice of objects: see `Written` for objects that
occur several times. -/
theorem C56_set_slice {w : World} (hr : Reach w) {crash : Bag → Bag} (hc : CrashOk crash) {h : Nat}
    (hm : Mutable w h) {ids : List (Option Obj)} {allocs : List Alloc} {small : Bool}
    (hi : IdsWF ids allocs small) (attr : Attr) {values : Slice} (hvs : values.WF)
    (hlen : ids.length = values.cells.length) :
    let r := write w h (.setSlice (.objects ids allocs small) attr values) crash
    r.2 = none ∧
    (∀ o, o.Valid → Written values (writesOf ids values o) (read w h o attr) (read r.1 h o attr)) ∧
    ∀ h' o attr', IsBag w h' → o.Valid → ¬ (h' = h ∧ attr' = attr) →
      read r.1 h' o attr' = read w h' o attr' := by
  intro r
  have hv : (Op.write h (.setSlice (.objects ids allocs small) attr values)).Valid w := by
    intro b _
    refine ⟨hvs, ?_⟩
    intro i a s he
    cases he
    exact ⟨hi, hlen⟩
  obtain ⟨b, h1, h2, h3, h4, hres⟩ := C56_write hr hc hm hv
  obtain ⟨b1, e1, _, r1, r2⟩ := C52_set_slice h1 h2 hi attr hvs hlen
  rcases hres with ⟨b', g1, g2, g3⟩ | ⟨e, g1, _⟩
  · have : b1 = b' := Except.ok.inj (e1.symm.trans g1)
    subst this
    refine ⟨g2, fun o ho => by rw [g3, ← h4]; exact r2 o ho, ?_⟩
    intro h' o attr' hh' ho hne
    by_cases hhh : h' = h
    · subst hhh
      rw [g3, r1 [] o attr' ho (fun hx => hne ⟨rfl, hx⟩), h4]
    · exact write_other hr hc hv hh' hhh o attr'
  · exact absurd (e1.symm.trans g1) (by simp)

/-- Assigning an attribute of all objects of an allocation. -/
theorem C56_assign {w : World} (hr : Reach w) {crash : Bag → Bag} (hc : CrashOk crash) {h : Nat}
    (hm : Mutable w h) {a : Alloc} (ha : a.WF) (hbig : a.isSmall = false) (n : Nat) (attr : Attr)
    {values : Slice} (hvs : values.WF) (hlen : values.cells.length = a.n)
    (hsome : ∃ i v, values.item i = some v) :
    let r := write w h (.assign (.emptyAndUnknown n) (some a) attr values) crash
    r.2 = none ∧
    (∀ i, i < a.n → (read r.1 h ⟨a, i⟩ attr).getD none = values.item i) ∧
    ∀ h' o attr', IsBag w h' → o.Valid → ¬ (h' = h ∧ o.alloc = a ∧ attr' = attr) →
      read r.1 h' o attr' = read w h' o attr' := by
  intro r
  have hv : (Op.write h (.assign (.emptyAndUnknown n) (some a) attr values)).Valid w := by
    intro b _
    refine ⟨hvs, ?_, ?_⟩
    · intro i l s he; cases he
    · intro a' he; cases he; exact ⟨ha, hlen⟩
  obtain ⟨b, h1, h2, h3, h4, hres⟩ := C56_write hr hc hm hv
  obtain ⟨b1, e1, _, r1, r2⟩ := C52_assign h1 h2 ha hbig (.emptyAndUnknown n) attr hvs hlen hsome
  rcases hres with ⟨b', g1, g2, g3⟩ | ⟨e, g1, _⟩
  · have : b1 = b' := Except.ok.inj (e1.symm.trans g1)
    subst this
    refine ⟨g2, fun i hlt => by rw [g3]; exact getAttr_one (r1 [] i hlt), ?_⟩
    intro h' o attr' hh' ho hne
    by_cases hhh : h' = h
    · subst hhh
      rw [g3, r2 [] o attr' ho (fun hx => hne ⟨rfl, hx⟩), h4]
    · exact write_other hr hc hv hh' hhh o attr'
  · exact absurd (e1.symm.trans g1) (by simp)

/-- Assigning an attribute of objects that are not a whole (big) allocation is
setting it. -/
theorem C56_assign_other (w : World) (h : Nat) (objs : Objs) (full : Option Alloc)
    (hs : ∀ a, full = some a → a.isSmall = true) (attr : Attr) (values : Slice) (crash : Bag → Bag) :
    write w h (.assign objs full attr values) crash = write w h (.setSlice objs attr values) crash := by
  have : WriteOp.run (.assign objs full attr values) = WriteOp.run (.setSlice objs attr values) := by
    funext b
    exact C52_assign_other b objs attr values full hs
  unfold write
  rw [this]

/-- Creating objects with attributes. -/
theorem C56_create {w : World} (hr : Reach w) {crash : Bag → Bag} (hc : CrashOk crash) {h : Nat}
    (hm : Mutable w h) {a : Alloc} (hn : 0 < a.n) {fields : List (Attr × Slice)} (hne : fields ≠ [])
    (hv : (Op.write h (.create a fields)).Valid w) :
    let r := write w h (.create a fields) crash
    r.2 = none ∧
    (∀ i f, i < a.n → f ∈ fields → (read r.1 h ⟨a, i⟩ f.1).getD none = f.2.item i) ∧
    ∀ h' o attr, IsBag w h' → o.Valid → ¬ (h' = h ∧ o.alloc = a ∧ attr ∈ fields.map (·.1)) →
      read r.1 h' o attr = read w h' o attr := by
  intro r
  obtain ⟨b, h1, h2, ⟨k1, k2, k3, k4⟩, h4, hres⟩ := C56_write hr hc hm hv
  obtain ⟨b1, ids, allocs, e1, _, _, _, r1, r2⟩ := C52_create h1 h2 k1 hn hne k2 k3 k4
  have e2 : WriteOp.run (.create a fields) b = .ok b1 := by
    unfold WriteOp.run; simp only; rw [e1]; rfl
  rcases hres with ⟨b', g1, g2, g3⟩ | ⟨e, g1, _⟩
  · have : b1 = b' := Except.ok.inj (e2.symm.trans g1)
    subst this
    refine ⟨g2, fun i f hlt hf => by rw [g3]; exact getAttr_one (r1 [] i f hlt hf (by simp)), ?_⟩
    intro h' o attr hh' ho hne
    by_cases hhh : h' = h
    · subst hhh
      rw [g3, r2 [] o attr ho (fun hx => hne ⟨rfl, hx⟩), h4]
    · exact write_other hr hc hv hh' hhh o attr
  · exact absurd (e2.symm.trans g1) (by simp)

/-- Creating one object with attributes. -/
theorem C56_create_one {w : World} (hr : Reach w) {crash : Bag → Bag} (hc : CrashOk crash) {h : Nat}
    (hm : Mutable w h) {o : Obj} (ho : o.Valid) (hs : o.alloc.isSmall = true)
    {fields : List (Attr × Item)} (hnd : (fields.map (·.1)).Nodup) :
    let r := write w h (.createOne o fields) crash
    r.2 = none ∧
    (∀ f, f ∈ fields → (read r.1 h o f.1).getD none = f.2) ∧
    ∀ h' o' attr, IsBag w h' → o'.Valid → ¬ (h' = h ∧ o' = o ∧ attr ∈ fields.map (·.1)) →
      read r.1 h' o' attr = read w h' o' attr := by
  intro r
  have hv : (Op.write h (.createOne o fields)).Valid w := fun b _ => ⟨ho, hs, hnd⟩
  obtain ⟨b, h1, h2, _, h4, hres⟩ := C56_write hr hc hm hv
  obtain ⟨b1, e1, _, r1, r2⟩ := C52_create_one h1 h2 ho hs hnd
  rcases hres with ⟨b', g1, g2, g3⟩ | ⟨e, g1, _⟩
  · have : b1 = b' := Except.ok.inj (e1.symm.trans g1)
    subst this
    refine ⟨g2, fun f hf => by rw [g3]; exact getAttr_one (r1 [] f hf), ?_⟩
    intro h' o' attr hh' ho' hne
    by_cases hhh : h' = h
    · subst hhh
      rw [g3, r2 [] o' attr ho' (fun hx => hne ⟨rfl, hx⟩), h4]
    · exact write_other hr hc hv hh' hhh o' attr
  · exact absurd (e1.symm.trans g1) (by simp)

/-- An immutable bag cannot be modified. -/
theorem C56_write_immutable {w : World} {h : Nat} (hi : Immutable w h) (op : WriteOp)
    (crash : Bag → Bag) : write w h op crash = (w, some .immutable) := by
  obtain ⟨d, hd, hm⟩ := hi
  unfold write
  rw [getMutableImpl_err hd hm]

/-! ### C57: making bags from others -/

/-- A new bag knows nothing. -/
theorem C57_new {w : World} (hr : Reach w) (mutbl : Bool) :
    (newBag w mutbl).bags.length = w.bags.length + 1 ∧
    (if mutbl then Mutable (newBag w mutbl) w.bags.length else Immutable (newBag w mutbl) w.bags.length) ∧
    ∀ x attr, read (newBag w mutbl) w.bags.length x attr = none := by
  have hn := newBag_new w hr.ok mutbl
  have hget := (get_bags w.bags { impl := w.impls.length, fallbacks := [], mutbl := mutbl, forked := false }
    w.bags.length _).2 (.inr ⟨rfl, rfl⟩)
  refine ⟨by unfold newBag; simp, ?_, ?_⟩
  · cases mutbl with
    | true => exact ⟨_, hget, rfl⟩
    | false => exact ⟨_, hget, rfl⟩
  · intro x attr
    have h1 : read (newBag w mutbl) w.bags.length x attr = look (newBag w mutbl) w.bags.length x attr :=
      read_nofb hget rfl x attr
    rw [h1]
    have h2 := hn.look x attr
    rw [lookup_frozen, emptyBag_lookup] at h2
    exact h2

private theorem forked {w : World} (hok : Ok w) {h : Nat} {d : DataBag} (hd : w.bags[h]? = some d)
    (hfb : d.fallbacks = []) (immutable : Bool) :
    (fallbackFreeFork w h d immutable).bags.length = w.bags.length + 1 ∧
    (if immutable then Immutable (fallbackFreeFork w h d immutable) w.bags.length
      else Mutable (fallbackFreeFork w h d immutable) w.bags.length) ∧
    ReadsAs (fallbackFreeFork w h d immutable) w.bags.length w h := by
  obtain ⟨_, _, h1, ⟨d', a1, a2, a3⟩, h2⟩ := fallbackFreeFork_ok hok hd immutable
  refine ⟨h1, ?_, ?_⟩
  · cases immutable with
    | true => exact ⟨d', a1, a2⟩
    | false => exact ⟨d', a1, a2⟩
  · intro x attr
    rw [read_nofb a1 a3, h2, read_nofb hd hfb]

/-- A fork is a new bag that reads the same. -/
theorem C57_fork {w : World} (hr : Reach w) {h : Nat} (hh : IsBag w h) (hfb : ¬ HasFallbacks w h)
    (immutable : Bool) :
    ∃ w', fork w h immutable = .ok w' ∧ w'.bags.length = w.bags.length + 1 ∧
      (if immutable then Immutable w' w.bags.length else Mutable w' w.bags.length) ∧
      ReadsAs w' w.bags.length w h := by
  obtain ⟨d, hd⟩ := get_of_lt hh
  have hfb' : d.fallbacks = [] := by
    cases hx : d.fallbacks with
    | nil => rfl
    | cons _ _ => exact absurd ⟨d, hd, by rw [hx]; simp⟩ hfb
  refine ⟨fallbackFreeFork w h d immutable, ?_, forked hr.ok hd hfb' immutable⟩
  unfold fork
  rw [hd]
  simp only [hfb', ne_eq, not_true_eq_false, if_false]

/-- A bag with fallbacks cannot be forked. -/
theorem C57_fork_fallbacks {w : World} {h : Nat} (hfb : HasFallbacks w h) (immutable : Bool) :
    fork w h immutable = .error .hasFallbacks := by
  obtain ⟨d, hd, hne⟩ := hfb
  unfold fork
  rw [hd]
  simp only [ne_eq, hne, not_false_eq_true, if_true]

/-- Freezing returns an immutable bag that reads the same; it is the bag itself if
it is immutable. -/
theorem C57_freeze {w : World} (hr : Reach w) {h : Nat} (hh : IsBag w h) :
    ∃ w' h', freeze w h = .ok (w', h') ∧ Immutable w' h' ∧ ReadsAs w' h' w h ∧
      (Immutable w h → w' = w ∧ h' = h) ∧
      (Mutable w h → h' = w.bags.length) := by
  obtain ⟨d, hd⟩ := get_of_lt hh
  unfold freeze
  rw [hd]
  simp only
  cases hm : d.mutbl with
  | true =>
    obtain ⟨_, h1, h2⟩ := forked hr.ok hd (hr.ok.fb h d hd hm) true
    refine ⟨_, _, rfl, h1, h2, ?_, fun _ => rfl⟩
    rintro ⟨d', hd', hm'⟩
    rw [hd] at hd'
    rw [← Option.some.inj hd', hm] at hm'
    cases hm'
  | false =>
    refine ⟨w, h, rfl, ⟨d, hd, hm⟩, fun _ _ => rfl, fun _ => ⟨rfl, rfl⟩, ?_⟩
    rintro ⟨d', hd', hm'⟩
    rw [hd] at hd'
    rw [← Option.some.inj hd', hm] at hm'
    cases hm'

/-- A bag that is made immutable reads the same. -/
theorem C57_make_immutable {w : World} (hr : Reach w) {h : Nat} (hh : IsBag w h) :
    ∃ w', makeImmutable w h = .ok w' ∧ Immutable w' h ∧ ReadsAs w' h w h := by
  obtain ⟨d, hd⟩ := get_of_lt hh
  obtain ⟨_, hk⟩ := makeImmutable_ok hr.ok hd
  refine ⟨_, by unfold makeImmutable; rw [hd], ⟨_, by simp only; rw [modify_get, hd]; rfl, ?_⟩, ?_⟩
  · simp
  · exact fun x attr => hk.read hr.ok hh (by simp) noTarget x attr

/-- A bag with fallbacks reads like the first of them that knows something (null
pointers are skipped). -/
theorem C57_fallbacks {w : World} (hr : Reach w) {fs : List (Option Nat)}
    (hfs : ∀ f, some f ∈ fs → Immutable w f) :
    ∃ w', withFallbacks w fs = .ok w' ∧ w'.bags.length = w.bags.length + 1 ∧
      Immutable w' w.bags.length ∧ (HasFallbacks w' w.bags.length ↔ ∃ f, some f ∈ fs) ∧
      ∀ x attr, read w' w.bags.length x attr =
        fs.findSome? fun f => f.bind fun f => read w f x attr := by
  have hall : ∀ f ∈ fs.filterMap id, ∃ d' : DataBag, w.bags[f]? = some d' ∧ d'.mutbl = false := by
    intro f hf
    obtain ⟨o, ho, he⟩ := List.mem_filterMap.1 hf
    simp only [id_eq] at he
    subst he
    exact hfs f ho
  have h1 : ¬ ((fs.filterMap id).any fun f => (w.bags[f]?).isNone) = true := by
    simp only [List.any_eq_true, not_exists, not_and]
    intro f hf
    obtain ⟨d, hd, _⟩ := hall f hf
    rw [hd]; simp
  have h2 : ¬ ((fs.filterMap id).any fun f => (w.bags[f]?).any (·.mutbl)) = true := by
    simp only [List.any_eq_true, not_exists, not_and]
    intro f hf
    obtain ⟨d, hd, hm⟩ := hall f hf
    rw [hd]; simp [hm]
  have hn := withFallbacks_new w hr.ok _ hall
  have hget := (get_bags w.bags ⟨w.impls.length, fs.filterMap id, false, false⟩ w.bags.length _).2 (.inr ⟨rfl, rfl⟩)
  refine ⟨_, by unfold withFallbacks; simp only; rw [if_neg h1, if_neg h2], by simp,
    ⟨_, hget, rfl⟩, ?_, ?_⟩
  · constructor
    · rintro ⟨d, hd, hne⟩
      simp only at hd
      rw [hget] at hd
      rw [← Option.some.inj hd] at hne
      simp only at hne
      cases hx : fs.filterMap id with
      | nil => exact absurd hx hne
      | cons f fl =>
        have : f ∈ fs.filterMap id := by rw [hx]; simp
        obtain ⟨o, ho, he⟩ := List.mem_filterMap.1 this
        simp only [id_eq] at he
        subst he
        exact ⟨f, ho⟩
    · rintro ⟨f, hf⟩
      refine ⟨_, hget, ?_⟩
      intro he
      have : f ∈ fs.filterMap id := List.mem_filterMap.2 ⟨some f, hf, rfl⟩
      simp only at he
      rw [he] at this
      cases this
  · intro x attr
    rw [read_eq (hn.okWorld hr.ok), hn.look, lookup_frozen, emptyBag_lookup, Option.none_or,
      kids_some (bags := w.bags ++ [_]) hget]
    simp only
    have hstay : ∀ f ∈ fs.filterMap id, ∀ w', Keeps w w' none none →
        read w' f x attr = read w f x attr := by
      intro f hf w' hk
      obtain ⟨d, hd, _⟩ := hall f hf
      exact hk.read hr.ok (lt_of_get hd) (by simp) noTarget x attr
    have hk := hn.keeps hr.ok
    generalize ({ impls := _, bags := w.bags ++ [_] } : World) = w' at hk ⊢
    clear hget hn h1 h2 hall hfs
    induction fs with
    | nil => rfl
    | cons f fs ih =>
      cases f with
      | none =>
        simp only [List.filterMap_cons, id_eq, List.findSome?_cons, Option.bind_none]
        exact ih (fun f hf => hstay f (by simpa using hf))
      | some f =>
        simp only [List.filterMap_cons, id_eq, List.findSome?_cons, Option.bind_some]
        rw [hstay f (by simp) w' hk, ih (fun g hg => hstay g (by
          simp only [List.filterMap_cons, id_eq]
          exact List.mem_cons_of_mem _ hg))]

/-- Fallbacks must be immutable. -/
theorem C57_fallbacks_mutable {w : World} {fs : List (Option Nat)}
    (hb : ∀ f, some f ∈ fs → IsBag w f) {f : Nat} (hf : some f ∈ fs) (hm : Mutable w f) :
    withFallbacks w fs = .error .mutableFallback := by
  have h1 : ¬ ((fs.filterMap id).any fun f => (w.bags[f]?).isNone) = true := by
    simp only [List.any_eq_true, not_exists, not_and]
    intro f hf
    obtain ⟨o, ho, he⟩ := List.mem_filterMap.1 hf
    simp only [id_eq] at he
    subst he
    obtain ⟨d, hd⟩ := get_of_lt (hb f ho)
    rw [hd]; simp
  have h2 : ((fs.filterMap id).any fun f => (w.bags[f]?).any (·.mutbl)) = true := by
    obtain ⟨d, hd, hm⟩ := hm
    rw [List.any_eq_true]
    refine ⟨f, List.mem_filterMap.2 ⟨some f, hf, rfl⟩, ?_⟩
    rw [hd]
    simpa using hm
  unfold withFallbacks
  simp only
  rw [if_neg h1, if_pos h2]

/-- At any time: a bag with fallbacks reads like the first of its fallbacks that
knows something, although bags that are reached twice are only looked at once. -/
theorem C57_read {w : World} (hr : Reach w) {h : Nat} {d : DataBag} (hd : w.bags[h]? = some d)
    (hfb : d.fallbacks ≠ []) (x : Obj) (attr : Attr) :
    read w h x attr = d.fallbacks.findSome? fun f => read w f x attr := by
  obtain ⟨b, hb, _⟩ := hr.ok.valid h d hd
  rw [read_eq hr.ok, kids_some hd, look_some (b := b) (by rw [implOf_some hd]; exact hb),
    hr.ok.own h d b hd hfb hb, Option.none_or]

/-- Reading an attribute of a slice of objects is reading it of each of them. -/
theorem C57_slice {w : World} (hr : Reach w) (h : Nat) {ids : List (Option Obj)} {allocs : List Alloc}
    {small : Bool} (hi : IdsWF ids allocs small) (attr : Attr) :
    ∃ s, getAttrSlice (readers w h) (.objects ids allocs small) attr = .ok s ∧
      s.cells.length = ids.length ∧
      (∀ (i : Nat) o, ids[i]? = some (some o) → s.item i = (read w h o attr).getD none) ∧
      ∀ (i : Nat), ids[i]? = some none → s.item i = none := by
  have hwf : ∀ b ∈ readers w h, b.WF := by
    intro b hb
    obtain ⟨g, _, hg⟩ := List.mem_filterMap.1 hb
    unfold implOf at hg
    cases hd : w.bags[g]? with
    | none => rw [hd] at hg; cases hg
    | some d => rw [hd] at hg; exact bagAt_wf hr.ok.impls hg
  obtain ⟨s, h1, _, h2, h3⟩ := C53_slice hi attr hwf
  refine ⟨s, h1, h2, ?_, ?_⟩
  · intro i o ho
    have := h3 i
    unfold itemAt at this
    rw [ho] at this
    exact (Except.ok.inj this).symm
  · intro i ho
    have := h3 i
    unfold itemAt at this
    rw [ho] at this
    exact (Except.ok.inj this).symm

/-- What the bags behind a bag know themselves, in terms of what is read from them. -/
private theorem clean_of {w : World} (hok : Ok w) {h : Nat} {x : Obj} {attr : Attr} (hx : x.Valid)
    (hn : NotErased w h x attr) : Clean w h x attr := by
  by_cases hs : x.alloc.isSmall = true
  · exact .inl hs
  · right
    intro f hf
    obtain ⟨d, hd, _⟩ := hf.immutable hok
    by_cases hfb : d.fallbacks = []
    · have := hn f hf (by
        rintro ⟨d', hd', hne⟩
        rw [hd] at hd'
        rw [← Option.some.inj hd'] at hne
        exact hne hfb)
      rcases this with h1 | ⟨y, h1, h2, h3⟩
      · exact absurd h1 hs
      · rw [read_nofb hd hfb] at h3
        exact ⟨y, h1, h2, h3⟩
    · obtain ⟨b, hb, _⟩ := hok.valid f d hd
      refine ⟨x, hx, rfl, ?_⟩
      rw [look_some (b := b) (by rw [implOf_some hd]; exact hb), hok.own f d b hd hfb hb]
      simp

/-- Merging the fallbacks of a bag makes a mutable bag without fallbacks that reads
the same. -/
theorem C57_merge_fallbacks {w : World} (hr : Reach w) {same : SameSources} (hsame : SameOk same)
    {h : Nat} (hh : IsBag w h) {w' : World} (he : mergeFallbacks same w h = .ok w') :
    w'.bags.length = w.bags.length + 1 ∧ Mutable w' w.bags.length ∧ ¬ HasFallbacks w' w.bags.length ∧
    ∀ x attr, x.Valid → NotErased w h x attr →
      read w' w.bags.length x attr = read w h x attr := by
  obtain ⟨d, hd⟩ := get_of_lt hh
  unfold mergeFallbacks at he
  rw [hd] at he
  simp only at he
  by_cases hfb : d.fallbacks = []
  · rw [if_pos (by rw [hfb]; rfl)] at he
    rw [← Except.ok.inj he]
    obtain ⟨h1, h2, h3⟩ := forked hr.ok hd hfb false
    refine ⟨h1, h2, ?_, fun x attr _ _ => h3 x attr⟩
    obtain ⟨_, _, _, ⟨d', a1, _, a3⟩, _⟩ := fallbackFreeFork_ok hr.ok hd false
    rintro ⟨d'', b1, b2⟩
    rw [a1] at b1
    rw [← Option.some.inj b1] at b2
    exact b2 a3
  · rw [if_neg (by rw [List.isEmpty_iff]; exact hfb)] at he
    cases hm : mergeFallbacksToForked same w h d with
    | error e => rw [hm] at he; cases he
    | ok impls' =>
      rw [hm] at he
      simp only at he
      rw [← Except.ok.inj he]
      obtain ⟨b', hn, hl⟩ := mergeFallbacks_new hsame hr.ok hd hfb hm
      have hget := (get_bags w.bags ⟨w.impls.length, [], true, false⟩ w.bags.length _).2 (.inr ⟨rfl, rfl⟩)
      refine ⟨by simp, ⟨_, hget, rfl⟩, ?_, ?_⟩
      · rintro ⟨d'', b1, b2⟩
        simp only at b1
        rw [hget] at b1
        rw [← Option.some.inj b1] at b2
        exact b2 rfl
      · intro x attr hx hne
        rw [read_nofb hget rfl, hn.look, hl x attr hx (clean_of hr.ok hx hne)]

/-- It succeeds, unless one of the bags has an array that is larger than its
allocation (see `C54_overrun_witness`). -/
theorem C57_merge_fallbacks_succeeds {w : World} (hr : Reach w) {same : SameSources}
    (hsame : SameOk same) {h : Nat} (hh : IsBag w h)
    (hover : ∀ f b, Behind w h f → implOf w f = some b → ¬ HasOversized b) :
    ∃ w', mergeFallbacks same w h = .ok w' := by
  obtain ⟨d, hd⟩ := get_of_lt hh
  unfold mergeFallbacks
  rw [hd]
  simp only
  by_cases hfb : d.fallbacks = []
  · rw [if_pos (by rw [hfb]; rfl)]; exact ⟨_, rfl⟩
  · rw [if_neg (by rw [List.isEmpty_iff]; exact hfb)]
    have := mergeFallbacksToForked_ok hsame hr.ok hd hfb
    cases hm : mergeFallbacksToForked same w h d with
    | ok impls' => exact ⟨_, rfl⟩
    | error e =>
      rw [hm] at this
      obtain ⟨_, f, o, h1, h2, h3⟩ := this
      exact absurd h3 (hover f o h1 h2)

/-! ### C58: merging bags -/

private theorem mergedAt_reads {p : Policy} {w : World} (hok : Ok w) {h other : Nat} {b o b' : Bag}
    {d : DataBag} (hd : w.bags[h]? = some d) (hfb : d.fallbacks = [])
    (hp : Pair w h other b o) {x : Obj} {attr : Attr} (hx : x.Valid)
    (hma : MergedAt p b o b' x attr) (h1 : NotErasedIn w other x attr) (h2 : NotErased w other x attr) :
    Merged p (read w h x attr) (read w other x attr) (b'.lookup x attr) := by
  have hcl := clean_of hok hx h2
  rw [read_nofb hd hfb, ← hp.lookb, ← hp.looko x attr hx hcl]
  rcases hma with hma | ⟨g1, _, _, _, g2⟩
  · exact hma
  · rcases h1 with h1 | ⟨y, y1, y2, y3⟩
    · rw [g1] at h1; cases h1
    · have hcy : Clean w other y attr := by
        unfold Clean at hcl ⊢
        rw [y2]; exact hcl
      rw [← hp.looko y attr y1 hcy] at y3
      exact absurd (g2 y y2 y1.off) y3

/-- Merging a bag into a mutable one does to each attribute of each object what the
policy says, given what is read from the two bags (with their fallbacks). -/
theorem C58_merge {w : World} (hr : Reach w) {same : SameSources} (hsame : SameOk same)
    {crash : Bag → Bag} (hc : CrashOk crash) {h other : Nat} (hm : Mutable w h) (ho : IsBag w other)
    (p : Policy) (hok : (mergeBags same w h other p crash).2 = none) {x : Obj} (hx : x.Valid) (attr : Attr)
    (h1 : NotErasedIn w other x attr) (h2 : NotErased w other x attr) :
    Merged p (read w h x attr) (read w other x attr)
      (read (mergeBags same w h other p crash).1 h x attr) := by
  obtain ⟨d, hd, hm⟩ := hm
  obtain ⟨d', hd'⟩ := get_of_lt ho
  have hfb := hr.ok.fb h d hd hm
  rcases mergeBags_ok hsame hr.ok hd hm hd' p hc with ⟨b, o, hp, hres⟩ | ⟨hres, _⟩
  · cases hmi : mergeInplace same b o p with
    | error e => rw [hmi] at hres; rw [hres.1] at hok; cases hok
    | ok b' =>
      rw [hmi] at hres
      obtain ⟨_, hdid⟩ := hres
      obtain ⟨d2, a1, a2, _⟩ := hdid.keeps.bag h d hd
      rw [read_nofb a1 (a2.trans hfb), hdid.look]
      exact mergedAt_reads hr.ok hd hfb hp hx
        ((C54_merge hp.bwf hp.frozen hp.owf hp.rel hsame hmi).2 x attr hx) h1 h2
  · rw [hres] at hok; cases hok

/-- The same with the flags of `MergeInplace`: overwriting, the other bag wins;
keeping, this one; and if conflicts are not allowed, both know the same. -/
theorem C58_flags {w : World} (hr : Reach w) {same : SameSources} (hsame : SameOk same)
    {crash : Bag → Bag} (hc : CrashOk crash) {h other : Nat} (hm : Mutable w h) (ho : IsBag w other)
    (overwrite allow : Bool)
    (hok : (mergeBags same w h other (policyOf overwrite allow) crash).2 = none)
    {x : Obj} (hx : x.Valid) (attr : Attr)
    (h1 : NotErasedIn w other x attr) (h2 : NotErased w other x attr) :
    let r := read (mergeBags same w h other (policyOf overwrite allow) crash).1 h x attr
    (allow = true → overwrite = true → r = (read w other x attr).or (read w h x attr)) ∧
    (allow = true → overwrite = false → r = (read w h x attr).or (read w other x attr)) ∧
    (allow = false → (∀ t o, read w h x attr = some t → read w other x attr = some o →
        Same t o ∧ (r = some t ∨ r = some o)) ∧
      (read w h x attr = none → r = read w other x attr) ∧
      (read w other x attr = none → r = read w h x attr)) := by
  have h := C58_merge hr hsame hc hm ho _ hok hx attr h1 h2
  simp only
  revert h
  generalize read (mergeBags same w h other (policyOf overwrite allow) crash).1 h x attr = r
  generalize read w h x attr = t
  generalize read w other x attr = o
  cases allow <;> cases overwrite <;> cases t <;> cases o <;> intro h <;>
    simp_all [policyOf, Merged]

/-- If it fails: the bag is immutable (then nothing happens), or it is an error of
the merge of two bags with that content. -/
theorem C58_error {w : World} (hr : Reach w) {same : SameSources} (hsame : SameOk same)
    {crash : Bag → Bag} (hc : CrashOk crash) {h other : Nat} (ho : IsBag w other) (p : Policy) :
    (Immutable w h → mergeBags same w h other p crash = (w, some .immutable)) ∧
    ∀ e, Mutable w h → (mergeBags same w h other p crash).2 = some e →
      (e = .impl .conflict ∧ p = .raise ∧ (¬ HasFallbacks w other →
        ∃ x attr, x.Valid ∧ Conflict (read w h x attr) (read w other x attr)) ∧
        ((∀ x attr, x.Valid → NotErased w other x attr) →
        ∃ x attr, x.Valid ∧ Conflict (read w h x attr) (read w other x attr))) ∨
      (e = .impl .outOfBounds ∧ (h ≠ other → ¬ HasFallbacks w other →
        ∃ o, implOf w other = some o ∧ HasOversized o)) := by
  obtain ⟨d', hd'⟩ := get_of_lt ho
  constructor
  · rintro ⟨d, hd, hm⟩
    unfold mergeBags
    rw [hd']
    simp only
    rw [getMutableImpl_err hd hm]
  · rintro e ⟨d, hd, hm⟩ he
    have hfb := hr.ok.fb h d hd hm
    have hnofb : ¬ HasFallbacks w other → d'.fallbacks = [] := by
      intro hn
      cases hx : d'.fallbacks with
      | nil => rfl
      | cons _ _ => exact absurd ⟨d', hd', by rw [hx]; simp⟩ hn
    rcases mergeBags_ok hsame hr.ok hd hm hd' p hc with ⟨b, o, hp, hres⟩ | ⟨hres, hne, _⟩
    · cases hmi : mergeInplace same b o p with
      | ok b' => rw [hmi] at hres; rw [hres.1] at he; cases he
      | error er =>
        rw [hmi] at hres
        rw [hres.1] at he
        rw [← Option.some.inj he]
        rcases C54_error hp.bwf hp.frozen hp.owf hp.rel hsame hmi with ⟨e1, e2, x, attr, hx, hcf⟩ | ⟨e1, e2⟩
        · rw [e1]
          refine .inl ⟨rfl, e2, fun hn => ⟨x, attr, hx, ?_⟩, fun hn => ⟨x, attr, hx, ?_⟩⟩
          · have h3 := hnofb hn
            rw [read_nofb hd hfb, read_nofb hd' h3, ← hp.lookb, ← (hp.plain d' hd' h3).1]
            exact hcf
          · rw [read_nofb hd hfb, ← hp.lookb, ← hp.looko x attr hx (clean_of hr.ok hx (hn x attr hx))]
            exact hcf
        · rw [e1]
          exact .inr ⟨rfl, fun hne hn => ⟨o, (hp.plain d' hd' (hnofb hn)).2 hne, e2⟩⟩
    · rw [hres] at he
      rw [← Option.some.inj he]
      exact .inr ⟨rfl, fun _ hn => absurd (hnofb hn) hne⟩

/-- An update made from another bag is a new immutable bag; in front of this bag it
reads like the other bag in front of this bag. -/
theorem C58_update {w : World} (hr : Reach w) {same : SameSources} (hsame : SameOk same)
    {h other : Nat} (hh : IsBag w h) (ho : IsBag w other) {w' : World}
    (he : createUpdateBag same w h other = .ok w') :
    w'.bags.length = w.bags.length + 1 ∧ Immutable w' w.bags.length ∧
    ¬ HasFallbacks w' w.bags.length ∧
    ∀ x attr, x.Valid → NotErasedIn w other x attr → NotErased w other x attr →
      (read w' w.bags.length x attr).or (read w h x attr) =
        (read w other x attr).or (read w h x attr) := by
  obtain ⟨d, hd⟩ := get_of_lt hh
  obtain ⟨d', hd'⟩ := get_of_lt ho
  have hfb : d.fallbacks = [] := by
    cases hx : d.fallbacks with
    | nil => rfl
    | cons f fs =>
      unfold createUpdateBag at he
      rw [hd, hd'] at he
      simp only [hx, ne_eq, reduceCtorEq, not_false_eq_true, if_true] at he
  have := createUpdateBag_ok hsame hr.ok hd hfb hd'
  rw [he] at this
  obtain ⟨b, o, u, h1, _, h2, _, _, h3, _, _, h4, ⟨dn, n1, n2, n3⟩, h5⟩ := this
  refine ⟨h4, ⟨dn, n1, n2⟩, ?_, ?_⟩
  · rintro ⟨d'', b1, b2⟩
    rw [n1] at b1
    rw [← Option.some.inj b1] at b2
    exact b2 n3
  · intro x attr hx g1 g2
    have hcl := clean_of hr.ok hx g2
    rw [read_nofb n1 n3, h5, read_nofb hd hfb, look_some h1, ← h2 x attr hx hcl]
    rcases h3 x attr hx with h3 | ⟨k1, _, _, _, k2⟩
    · exact h3
    · rcases g1 with g1 | ⟨y, y1, y2, y3⟩
      · rw [k1] at g1; cases g1
      · have hcy : Clean w other y attr := by
          unfold Clean at hcl ⊢
          rw [y2]; exact hcl
        rw [← h2 y attr y1 hcy] at y3
        exact absurd (k2 y y2 y1.off) y3

/-- It can always be made for a bag without fallbacks, whether the bags are mutable
or not (but see `C54_overrun_witness`), and never for one with fallbacks. -/
theorem C58_update_succeeds {w : World} (hr : Reach w) {same : SameSources} (hsame : SameOk same)
    {h other : Nat} (hh : IsBag w h) (ho : IsBag w other) :
    (HasFallbacks w h → createUpdateBag same w h other = .error .hasFallbacks) ∧
    (¬ HasFallbacks w h → ∀ e, createUpdateBag same w h other = .error e → e = .impl .outOfBounds) ∧
    (¬ HasFallbacks w h → ¬ HasFallbacks w other → (∀ b, implOf w other = some b → ¬ HasOversized b) →
      ∃ w', createUpdateBag same w h other = .ok w') := by
  obtain ⟨d, hd⟩ := get_of_lt hh
  obtain ⟨d', hd'⟩ := get_of_lt ho
  have hnofb : ∀ {k : Nat} {dk : DataBag}, w.bags[k]? = some dk → ¬ HasFallbacks w k → dk.fallbacks = [] := by
    intro k dk hk hn
    cases hx : dk.fallbacks with
    | nil => rfl
    | cons _ _ => exact absurd ⟨dk, hk, by rw [hx]; simp⟩ hn
  refine ⟨?_, ?_, ?_⟩
  · rintro ⟨d2, hd2, hne⟩
    rw [hd] at hd2
    rw [← Option.some.inj hd2] at hne
    unfold createUpdateBag
    rw [hd, hd']
    simp only
    rw [if_pos hne]
  · intro hn e he
    have := createUpdateBag_ok hsame hr.ok hd (hnofb hd hn) hd'
    rw [he] at this
    exact this.1
  · intro hn hn' hover
    have := createUpdateBag_ok hsame hr.ok hd (hnofb hd hn) hd'
    cases hres : createUpdateBag same w h other with
    | ok w' => exact ⟨w', rfl⟩
    | error e =>
      rw [hres] at this
      rcases this.2 with ⟨f, o, h1, _⟩ | ⟨_, o, h1, h2⟩ | ⟨h1, _⟩
      · cases h1 with
        | direct g1 g2 =>
          rw [hd'] at g1
          rw [← Option.some.inj g1, hnofb hd' hn'] at g2
          cases g2
        | more g1 g2 _ =>
          rw [hd'] at g1
          rw [← Option.some.inj g1, hnofb hd' hn'] at g2
          cases g2
      · exact absurd h2 (hover o h1)
      · exact absurd (hnofb hd' hn') h1

/-! ### Examples -/

namespace Example

def never : SameSources := fun _ _ => false

/-- The world after some operations, and their errors. -/
def run (ops : List Op) : World × List (Option WErr) :=
  ops.foldl (fun r op => ((step never id r.1 op).1, r.2 ++ [(step never id r.1 op).2])) (emptyWorld, [])

def v (n : Nat) : Val := ⟨1, n, n, false⟩
def big : Alloc := ⟨7, 3, 5⟩
def x : Obj := ⟨⟨8, 0, 1⟩, 0⟩
def objs (l : List Nat) : Objs := .objects (l.map fun i => some ⟨big, i⟩) [big] false
def values (l : List (Option Nat)) : Slice := build (l.map fun n => some (n.map v))

/-- Bag 1 is a fork of bag 0, bag 2 the frozen bag 0, bag 3 has bag 2 behind it.
Then bags 0 and 1 are modified. -/
def history : World × List (Option WErr) := run
  [ .newBag true, .write 0 (.setAttr (.object x) 0 (some (v 3))), .fork 0 false, .freeze 0,
    .withFallbacks [none, some 2], .write 0 (.setAttr (.object x) 0 none),
    .write 1 (.setAttr (.object x) 0 (some (v 4))), .write 2 (.setAttr (.object x) 0 (some (v 5))) ]

example : history.2 = [none, none, none, none, none, none, none, some .immutable] ∧
    [0, 1, 2, 3].map (fun h => read history.1 h x 0) =
      [some none, some (some (v 4)), some (some (v 3)), some (some (v 3))] := by
  decide +kernel

theorem same_ok : SameOk never := fun _ _ h => by cases h

theorem id_ok : CrashOk id := fun _ hb hf => ⟨hb, hf, rfl, rfl⟩

private theorem run_reach (ops : List Op) (hv : ∀ op ∈ ops, ∀ w, op.Valid w) : Reach (run ops).1 := by
  suffices h : ∀ (ops : List Op) (r : World × List (Option WErr)), Reach r.1 →
      (∀ op ∈ ops, ∀ w, op.Valid w) →
      Reach (ops.foldl (fun r op => ((step never id r.1 op).1, r.2 ++ [(step never id r.1 op).2])) r).1 from
    h ops _ .init hv
  intro ops
  induction ops with
  | nil => intro r hr _; exact hr
  | cons op ops ih =>
    intro r hr hv
    exact ih _ (.step hr same_ok id_ok (hv op (by simp) _)) (fun o ho => hv o (by simp [ho]))

/-- The hypotheses of the theorems hold for this history, and bag 2 is immutable. -/
theorem history_reach : Reach history.1 := by
  have hx : x.Valid := ⟨by unfold Alloc.WF; decide +kernel, by decide +kernel⟩
  refine run_reach _ ?_
  intro op hop w
  simp only [List.mem_cons, List.not_mem_nil, or_false] at hop
  rcases hop with h | h | h | h | h | h | h | h <;> subst h
  all_goals first
    | trivial
    | (intro b _ y hy; cases hy; exact hx)

example : Immutable history.1 2 ∧ Mutable history.1 0 ∧ Mutable history.1 1 ∧
    HasFallbacks history.1 3 := by
  refine ⟨⟨_, rfl, ?_⟩, ⟨_, rfl, ?_⟩, ⟨_, rfl, ?_⟩, ⟨_, rfl, ?_⟩⟩ <;> decide +kernel

/-- Merging: bag 0 has removed the attribute, bag 3 reads 3 from its fallback. -/
example :
    let w := history.1
    read (mergeBags never w 0 3 (policyOf true true) id).1 0 x 0 = some (some (v 3)) ∧
    read (mergeBags never w 0 3 (policyOf false true) id).1 0 x 0 = some none ∧
    (mergeBags never w 0 3 (policyOf true false) id).2 = some (.impl .conflict) ∧
    (createUpdateBag never w 0 3).toOption.map (fun w' => read w' 4 x 0) =
      some (some (some (v 3))) := by
  decide +kernel

end Example

/-- `C57_merge_fallbacks` needs its hypothesis: if the first fallback knows nothing
about an object but has an array for the allocation of the object, and the attribute
was removed from all objects of the allocation in the second one, merging the
fallbacks brings back a value of the third one. -/
theorem C57_merge_fallbacks_witness :
    let w := (Example.run
      [ .newBag true, .write 0 (.setSlice (Example.objs [0, 1, 2, 3]) 0 (Example.values [some 1, some 1, some 1, some 1])),
        .newBag true, .write 1 (.create Example.big [(0, Slice.allRemoved 5)]),
        .newBag true, .write 2 (.setAttr (.object ⟨Example.big, 4⟩) 0 (some (Example.v 9))),
        .makeImmutable 0, .makeImmutable 1, .makeImmutable 2,
        .withFallbacks [some 0, some 1, some 2], .mergeFallbacks 3 ]).1
    read w 3 ⟨Example.big, 4⟩ 0 = some none ∧ read w 4 ⟨Example.big, 4⟩ 0 = some (some (Example.v 9)) := by
  decide +kernel

end Verif.BagWorld
