import Verif.Trampoline.Model

/-!
The recursive program that a trampoline program stands for: a callback runs, and then the callbacks
that it enqueued, one after the other, each with all that it enqueues itself.
-/

namespace Verif.Trampoline

variable {C S E : Type}

/-- `Runs p cs s s' called r`: the callbacks `cs`, run one after the other in the state `s`, end in
the state `s'` with the status `r`; `called` are all the callbacks that ran, in order. An error ends
everything. -/
inductive Runs (p : Program C S E) : List C → S → S → List C → Option E → Prop where
  | done (s) : Runs p [] s s [] none
  | fails {c rest s s' cs e} : p.run c s = (s', cs, some e) →
      Runs p (c :: rest) s s' [c] (some e)
  | inside {c rest s s' s'' cs called e} : p.run c s = (s', cs, none) →
      Runs p cs s' s'' called (some e) →
      Runs p (c :: rest) s s'' (c :: called) (some e)
  | next {c rest s s' s'' s''' cs called called' r} : p.run c s = (s', cs, none) →
      Runs p cs s' s'' called none →
      Runs p rest s'' s''' called' r →
      Runs p (c :: rest) s s''' (c :: called ++ called') r

/-- The callbacks that calls enqueue, one call after the other. -/
def enqueuedBy (p : Program C S E) : List C → S → List C
  | [], _ => []
  | c :: cs, s => (p.run c s).2.1 ++ enqueuedBy p cs (p.run c s).1

/-- The state after calls. -/
def stateBy (p : Program C S E) : List C → S → S
  | [], s => s
  | c :: cs, s => stateBy p cs (p.run c s).1

end Verif.Trampoline
