import Verif.Observability.Props
import Mathlib.Algebra.Order.Field.Rat

/-!
# Observability: cases that meet the hypotheses, and a grid that is accepted although a bus is not measured
-/

namespace PGM.Observability

open PGM.YBus

/-- Buses 0 and 1 below bus 2, which is connected by two parallel branches to bus 3. -/
def exTopo : Topo where
  nBus := 4
  branches := [(some 0, some 2), (some 2, some 1), (some 2, some 3), (some 3, some 2), (some 1, none)]
  shuntBus := [1]
  fillIn := []

theorem exTopo_valid : exTopo.Valid where
  nonempty := by decide
  branchRange := by simp [exTopo]
  shuntRange := by simp [exTopo]
  fillRange := by simp [exTopo]
  fillOff := by simp [exTopo]
  fillNew := by simp [exTopo]
  fillOnce := by simp [exTopo]
  covered := by
    right
    intro r hr
    have : r = 0 ∨ r = 1 ∨ r = 2 ∨ r = 3 := by simp [exTopo] at hr; omega
    rcases this with rfl | rfl | rfl | rfl <;> simp [exTopo]

theorem exTopo_radial : Radial exTopo := by
  intro r hr
  have : r = 0 ∨ r = 1 ∨ r = 2 := by simp [exTopo] at hr; omega
  rcases this with rfl | rfl | rfl
  · exact ⟨2, by decide, ⟨_, List.mem_cons_self, Or.inl rfl⟩, by intro c hc; simp [exTopo, Connects]; omega⟩
  · exact ⟨2, by decide, ⟨(some 2, some 1), by simp [exTopo], Or.inr rfl⟩, by intro c hc; simp [exTopo, Connects]; omega⟩
  · exact ⟨3, by decide, ⟨(some 2, some 3), by simp [exTopo], Or.inl rfl⟩, by intro c hc; simp [exTopo, Connects]; omega⟩

/-- All admittances are one. -/
theorem exTopo_proper : Proper exTopo (fun _ => (1 : ℚ)) where
  branch := fun _ _ _ _ => one_ne_zero
  parallel := by
    intro a b hab h
    simp only [exTopo, List.mem_cons, List.not_mem_nil, or_false, exists_eq_or_imp, exists_eq_left, Connects, Prod.mk.injEq,
      Option.some.injEq, reduceCtorEq, and_false, or_self, false_and, or_false] at h
    rcases h with (⟨rfl, rfl⟩ | ⟨rfl, rfl⟩) | (⟨rfl, rfl⟩ | ⟨rfl, rfl⟩) | (⟨rfl, rfl⟩ | ⟨rfl, rfl⟩) | (⟨rfl, rfl⟩ | ⟨rfl, rfl⟩) <;>
      decide +kernel

/-- A sensor on the second of the parallel branches, all of bus 0 measured, all of bus 2 measured, one voltage with angle. -/
def exMeas : Meas where
  voltage v := v == 3
  angle _ := true
  injection v := v == 0 || v == 2
  fromPower _ := false
  toPower _ := false
  fromCurrent k := k == 3
  toCurrent _ := false
  globalAngleCurrent := true

example : ∀ a b, HasPhasor exMeas a → HasPhasor exMeas b → a = b := by
  intro a b ha hb
  have h1 : a = 3 := by simpa [HasPhasor, exMeas] using ha
  have h2 : b = 3 := by simpa [HasPhasor, exMeas] using hb
  omega

/-- It is accepted: the branch below bus 0 takes its injection, the one above bus 1 that of bus 2. -/
theorem exMeas_accepted : ((build exTopo).map fun S => check exTopo true S exMeas) = some (.returns true true) := by decide +kernel

/-- So the measurements determine the state. -/
example : Determined exTopo exMeas (fun _ => (1 : ℚ)) := by
  by_contra h
  obtain ⟨S, hS, _⟩ := structure_correct exTopo_valid
  obtain ⟨r, hr⟩ := (radial_accepts exTopo_valid hS exTopo_radial exMeas ⟨3, by decide, by decide⟩ (by
    intro a b _ _ ha hb
    have h1 : a = 3 := by simpa [HasPhasor, exMeas] using ha
    have h2 : b = 3 := by simpa [HasPhasor, exMeas] using hb
    omega) (fun _ => ⟨3, by decide, by decide, by decide⟩) _ exTopo_proper).2 h
  have := exMeas_accepted
  rw [hS, Option.map_some, hr] at this
  cases this

/-- Without the injection of bus 2 there are too few sensors; with that of bus 3 instead there are enough, but they depend on
each other. -/
example : ((build exTopo).map fun S => check exTopo true S { exMeas with injection := fun v => v == 0 }) =
    some (.throws .tooFewPhasor) := by decide +kernel

example : ((build exTopo).map fun S => check exTopo true S { exMeas with injection := fun v => v == 0 || v == 3 }) =
    some (.throws .dependent) := by decide +kernel

/-- With three of the four injections nothing else is needed. -/
example : ((build exTopo).map fun S =>
    check exTopo true S { exMeas with injection := fun v => v != 1, fromCurrent := fun _ => false, voltage := fun v => v == 0 }) =
    some (.returns true true) := by decide +kernel

/-! ## More than one voltage phasor -/

/-- Buses 0 and 1 below bus 2. -/
def forkTopo : Topo where
  nBus := 3
  branches := [(some 0, some 2), (some 1, some 2)]
  shuntBus := []
  fillIn := []

theorem forkTopo_valid : forkTopo.Valid where
  nonempty := by decide
  branchRange := by simp [forkTopo]
  shuntRange := by simp [forkTopo]
  fillRange := by simp [forkTopo]
  fillOff := by simp [forkTopo]
  fillNew := by simp [forkTopo]
  fillOnce := by simp [forkTopo]
  covered := by
    right
    intro r hr
    have : r = 0 ∨ r = 1 ∨ r = 2 := by simp [forkTopo] at hr; omega
    rcases this with rfl | rfl | rfl <;> simp [forkTopo]

theorem forkTopo_radial : Radial forkTopo := by
  intro r hr
  have : r = 0 ∨ r = 1 := by simp [forkTopo] at hr; omega
  rcases this with rfl | rfl
  · exact ⟨2, by decide, ⟨_, List.mem_cons_self, Or.inl rfl⟩, by intro c hc; simp [forkTopo, Connects]; omega⟩
  · exact ⟨2, by decide, ⟨(some 1, some 2), by simp [forkTopo], Or.inl rfl⟩, by intro c hc; simp [forkTopo, Connects]; omega⟩

/-- The voltage phasors of buses 1 and 2 and the flow between them are measured. -/
def forkMeas : Meas where
  voltage v := v == 1 || v == 2
  angle _ := true
  injection _ := false
  fromPower k := k == 1
  toPower _ := false
  fromCurrent _ := false
  toCurrent _ := false
  globalAngleCurrent := false

/-- With more than one voltage phasor sensor the check of radial grids is wrong: it looks for the phasor of the bus above at the bus
with the next number (line 155). This grid is accepted although nothing at all is measured at bus 0 or its branch: its voltage can be
anything. -/
theorem radial_two_phasors_unsound : forkTopo.Valid ∧ Radial forkTopo ∧
    ((build forkTopo).map fun S => check forkTopo true S forkMeas) = some (.returns true true) ∧
    ∃ U : Nat → ℚ, Unseen forkTopo forkMeas (fun _ => 1) U ∧ (∀ v, HasPhasor forkMeas v → U v = 0) ∧ U 0 = 1 := by
  refine ⟨forkTopo_valid, forkTopo_radial, by decide +kernel, fun v => if v = 0 then 1 else 0, ⟨?_, ?_⟩, ?_, rfl⟩
  · intro k f t hk hs
    have : k = 1 := by simpa [HasFlowSensor, forkMeas] using hs
    subst this
    simp only [forkTopo, List.getElem?_cons_succ, List.getElem?_cons_zero, Option.some.injEq, Prod.mk.injEq] at hk
    obtain ⟨rfl, rfl⟩ := hk
    decide +kernel
  · intro v _ h
    cases h
  · intro v h
    have : v = 1 ∨ v = 2 := by simpa [HasPhasor, forkMeas] using h
    rcases this with rfl | rfl <;> rfl

end PGM.Observability
