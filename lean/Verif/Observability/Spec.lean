import Mathlib.Algebra.Field.Basic
import Verif.Observability.Model
import Verif.YBus.Props

/-!
# Observability: specification (C40)

What measurements determine, in terms of the branches of an island, their admittances and the voltages of the buses. The field is
arbitrary: with real numbers this is the usual linearised observability of phase angles (admittances are susceptances, flows are
active powers), with complex numbers it is that of complex voltages (flows are currents).
-/

namespace PGM.Observability

open PGM.YBus

variable {K : Type} [Field K]

/-- What branch number `b.2` between the buses `b.1` takes from the bus `v`, given the admittances `y` and the voltages `U`. -/
def taken (y U : Nat → K) (v : Nat) (b : (Option Nat × Option Nat) × Nat) : K :=
  match b.1 with
  | (some f, some t) => (if f = v then y b.2 * (U f - U t) else 0) + if t = v then y b.2 * (U t - U f) else 0
  | _ => 0

/-- What all branches together take from a bus: its injection. -/
def injected (T : Topo) (y U : Nat → K) (v : Nat) : K := (T.branches.zipIdx.map (taken y U v)).sum

/-- The branch has a power or a current sensor at one of its ends. -/
def HasFlowSensor (M : Meas) (k : Nat) : Prop :=
  M.fromPower k = true ∨ M.toPower k = true ∨ M.fromCurrent k = true ∨ M.toCurrent k = true

/-- With these voltages all flow sensors on connected branches and all measured injections read zero. -/
structure Unseen (T : Topo) (M : Meas) (y U : Nat → K) : Prop where
  branch : ∀ (k f t : Nat), T.branches[k]? = some (some f, some t) → HasFlowSensor M k → y k * (U f - U t) = 0
  bus : ∀ v, v < T.nBus → M.injection v = true → injected T y U v = 0

/-- The flow measurements determine the differences between the voltages of the buses, and with them the flows of all branches.
Measured values are linear in the voltages, so it is enough to say that only equal voltages make all readings zero. -/
def Determined (T : Topo) (M : Meas) (y : Nat → K) : Prop :=
  ∀ U : Nat → K, Unseen T M y U → ∀ a b, a < T.nBus → b < T.nBus → U a = U b

/-- The sum of the admittances of the branches between two buses. -/
def together (T : Topo) (y : Nat → K) (a b : Nat) : K :=
  (T.branches.zipIdx.map fun k => if k.1 = (some a, some b) ∨ k.1 = (some b, some a) then y k.2 else 0).sum

/-- No connected branch, and no group of parallel branches, has admittance zero. -/
structure Proper (T : Topo) (y : Nat → K) : Prop where
  branch : ∀ (k f t : Nat), T.branches[k]? = some (some f, some t) → y k ≠ 0
  parallel : ∀ a b, a ≠ b → (∃ c ∈ T.branches, Connects c a b) → together T y a b ≠ 0

/-- The numbering that the topology gives to the buses of an island without cycles: it is the reverse of a depth-first search, so
every bus except the last is connected to exactly one bus with a higher number. Parallel branches count once. -/
def Radial (T : Topo) : Prop :=
  ∀ r, r + 1 < T.nBus → ∃ c, r < c ∧ (∃ b ∈ T.branches, Connects b r c) ∧ ∀ c', r < c' → (∃ b ∈ T.branches, Connects b r c') → c' = c

/-- The bus has a voltage phasor sensor. -/
def HasPhasor (M : Meas) (v : Nat) : Prop := M.voltage v = true ∧ M.angle v = true

end PGM.Observability
