import Verif.ShortCircuit.Model
import Verif.Component.Fault

/-!
# Short-circuit calculation: specification (C20)

The laws of the faults by the numbers of their type and phase (`P/common/enum.hpp` lines 89-107), without the cases of the solver; the faulted
phases that a phase number means are `Component.phases` (C31). -/

namespace PGM.ShortCircuit

open PGM.YBus PGM.Component PGM.PowerFlow

variable {s : Symm}

/-- What a fault with admittance `y` (`none`: no impedance) prescribes for the voltages `u` of its bus and the current `i` from the bus into the
fault. -/
def FaultLaw (type phase : Int) (y : Option ℂ) (u i : CV s) : Prop :=
  -- healthy phases carry no fault current
  (∀ r : Fin s.phases, s = .asym → (∀ l, phases phase = some l → r.val ∉ l) → i r = 0) ∧
  -- three-phase: every phase to ground through the admittance
  (type = 0 → match y with
    | none => ∀ p, u p = 0
    | some y => ∀ p, i p = y * u p) ∧
  -- single phase to ground
  (type = 1 → ∀ p : Fin s.phases, phases phase = some [p.val] → match y with
    | none => u p = 0
    | some y => i p = y * u p) ∧
  -- two phases, connected through the admittance
  (type = 2 → ∀ p q : Fin s.phases, phases phase = some [p.val, q.val] → i p + i q = 0 ∧ match y with
    | none => u p = u q
    | some y => i p = y * (u p - u q)) ∧
  -- two phases connected to each other, and to ground through the admittance
  (type = 3 → ∀ p q : Fin s.phases, phases phase = some [p.val, q.val] → match y with
    | none => u p = 0 ∧ u q = 0
    | some y => u p = u q ∧ i p + i q = y * u p)

/-- Kirchhoff's current law at a bus, in terms of what is reported. -/
def Balance (N : PfNet s) (inp : ScInput) (out : ScOut s) (b : Nat) : Prop :=
  atBus N.sourceBus out.source b + fromShunts N.T out.shunt b = intoBranches N.T out.branch b + atBus inp.faultBus out.fault b

/-- The net current that reported sources, shunts and branches supply to a bus. -/
def supplied (N : PfNet s) (out : ScOut s) (b : Nat) : CV s :=
  atBus N.sourceBus out.source b + fromShunts N.T out.shunt b - intoBranches N.T out.branch b

/-- Fault `k` of the input: its bus and parameters. -/
def FaultAt (inp : ScInput) (b k : Nat) (f : FaultParam) : Prop := inp.faultBus[k]? = some b ∧ inp.faults[k]? = some f

/-- A fault without impedance at the bus. -/
def Solid (inp : ScInput) (b : Nat) : Prop := ∃ k f, FaultAt inp b k f ∧ f.y = none

/-- The sum of the finite admittances of the faults of a bus. -/
noncomputable def totalAdmittance (inp : ScInput) (b : Nat) : ℂ :=
  ((inp.faultBus.zip inp.faults).map fun x => if x.1 = b then x.2.y.getD 0 else 0).sum

open Classical in
/-- The admittance of all faults of a bus in parallel: infinite if one of them is. -/
noncomputable def parallel (inp : ScInput) (b : Nat) : Option ℂ := if Solid inp b then none else some (totalAdmittance inp b)

/-- The input that the preparation hands to the solver: a bus of the island for every fault, the accepted combinations of type and phase, three
phase faults in symmetric calculations. -/
structure ScInput.Valid (N : PfNet s) (inp : ScInput) : Prop where
  length : inp.faultBus.length = inp.faults.length
  bus : ∀ b ∈ inp.faultBus, b < N.T.nBus
  combination : ∀ f ∈ inp.faults, Meaningful f.type f.phase
  symmetric : s = .sym → ∀ f ∈ inp.faults, f.type = 0

/-- What the faults of a bus must satisfy for the reported fault currents to be right. -/
structure Regular (N : PfNet s) (inp : ScInput) (b : Nat) : Prop where
  /-- At most one fault without impedance. -/
  solid : ∀ j k f g, FaultAt inp b j f → FaultAt inp b k g → f.y = none → g.y = none → j = k
  /-- Without such a fault, at most one two-phase-to-ground fault. -/
  ground : ∀ j k f g, FaultAt inp b j f → FaultAt inp b k g → f.type = 3 → (∀ i h, FaultAt inp b i h → h.y ≠ none) → j = k
  /-- At a fault to ground of one or two phases without impedance, equal sequence admittances of the sources. -/
  source : ∀ k f, FaultAt inp b k f → f.y = none → (f.type = 1 ∨ f.type = 3) → ∀ i, N.sourceBus[i]? = some b → N.y0 i = N.y1 i

end PGM.ShortCircuit
