import Verif.Logging.Model

/-!
# What the information about a calculation should be (C64): specification
-/

namespace PGM.Logging

variable {R : Type} [Ring R] [LinearOrder R]

/-- The value that an operation logs for an event, by whichever logger. -/
def valueOf (tag : Event) : Op R → Option R
  | .child _ t v => if t = tag then some v else none
  | .main t v => if t = tag then some v else none
  | _ => none

/-- All values that are logged for an event. -/
def logged (tag : Event) (ops : List (Op R)) : List R := ops.filterMap (valueOf tag)

/-- What a report should say about an event with the given values: nothing if there are none, the largest for numbers of iterations, the total for everything else. -/
def expected (tag : Event) (values : List R) : Option R :=
  if values = [] then none
  else match tag with
    | .unknown => none
    | .iterativePfMaxIter | .maxIter => some (values.foldr max 0)
    | _ => some values.sum

/-- No child logger is copied. -/
def NoCopies (ops : List (Op R)) : Prop := ∀ i j, Op.copy i j ∉ ops

/-- The measurements that are started. -/
def started (ops : List TOp) : List Nat := ops.filterMap fun | .start _ m => some m | _ => none

end PGM.Logging
