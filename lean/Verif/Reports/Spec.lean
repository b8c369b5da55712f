import Verif.Reports.Model
import Verif.Output.Spec

/-!
# Specification of the remaining reported values (property C62)
-/

namespace PGM.Reports

open PGM.Container PGM.Input PGM.Update PGM.Topology PGM.PowerFlow PGM.Output

variable {K : Type} {σ : Symm}

/-- The largest of the currents that a branch reports, over its two sides and all phases. -/
def LargestCurrent (r : Output.BranchOut σ) (m : ℝ) : Prop := IsGreatest (Set.range r.iFrom ∪ Set.range r.iTo) m

/-- The relative loading that the documentation gives a branch with the record `r` and the apparent powers `sFrom`, `sTo`: lines by the largest current, transformers and generic branches by the larger
of the total apparent powers at the two sides. A line or transformer without a rating has none; a generic branch without a rating, and a link, is not loaded. -/
inductive HasLoading (r : Output.BranchOut σ) (sFrom sTo : RV σ ℝ) : CompType → Option ℝ → Option ℝ → Prop
  | line (rating m : ℝ) : rating ≠ 0 → LargestCurrent r m → HasLoading r sFrom sTo .line (some rating) (some (m / rating))
  | asymLine (rating m : ℝ) : rating ≠ 0 → LargestCurrent r m → HasLoading r sFrom sTo .asymLine (some rating) (some (m / rating))
  | transformer (rating : ℝ) : rating ≠ 0 → HasLoading r sFrom sTo .transformer (some rating) (some (max (∑ j, sFrom j) (∑ j, sTo j) / rating))
  | generic (rating : ℝ) : rating ≠ 0 → HasLoading r sFrom sTo .genericBranch (some rating) (some (max (∑ j, sFrom j) (∑ j, sTo j) / rating))
  | unrated (t : CompType) : t ∈ [CompType.line, .asymLine, .transformer] → HasLoading r sFrom sTo t none none
  | genericUnrated : HasLoading r sFrom sTo .genericBranch none (some 0)
  | link (rating : Option ℝ) : HasLoading r sFrom sTo .link rating (some 0)

/-- A complex number is reported as magnitude and angle. -/
def IsPolar (magnitude angle : ℝ) (z : ℂ) : Prop :=
  0 ≤ magnitude ∧ -Real.pi < angle ∧ angle ≤ Real.pi ∧ (magnitude : ℂ) * Complex.exp (angle * Complex.I) = z

/-- The phasors of the three phases: those of an asymmetric result, or the positive-sequence system of a symmetric one. -/
noncomputable def phasors (x : CV σ) (j : Fin 3) : ℂ :=
  match σ, x with
  | .sym, x => x (0 : Fin 1) * Complex.exp (-(j * (2 * Real.pi / 3)) * Complex.I)
  | .asym, x => x j

/-- The base of the currents at a rated voltage: 1 MVA in three phases. -/
noncomputable def ampere (uRated : ℝ) : ℝ := 1000000 / (√3 * uRated)

/-- A current in a short-circuit record is the given result in ampere. -/
def InAmpere (cur : ScCurrent) (uRated : ℝ) (i : CV σ) : Prop := ∀ j, IsPolar (cur.i j) (cur.angle j) (ampere uRated * phasors i j)

/-- Every place that the topology assigned to a component exists in the results of a short-circuit calculation. -/
structure ScFits (O : Objects) (fault : Nat → Option (Nat × Nat)) (sol : List (ScSol σ)) : Prop where
  node : ∀ s m, O.node s = some m → ∃ x, sol[m.1]? = some x ∧ m.2 < x.u.length
  branch : ∀ s m, O.branch s = some m → ∃ x, sol[m.1]? = some x ∧ m.2 < x.branch.length
  branch3 : ∀ s m, O.branch3 s = some m → ∃ x, sol[m.1]? = some x ∧ ∀ j, m.2 j < x.branch.length
  source : ∀ s m, O.source s = some m → ∃ x, sol[m.1]? = some x ∧ m.2 < x.source.length
  shunt : ∀ s m, O.shunt s = some m → ∃ x, sol[m.1]? = some x ∧ m.2 < x.shunt.length
  fault : ∀ s m, fault s = some m → ∃ x, sol[m.1]? = some x ∧ m.2 < x.fault.length

end PGM.Reports
