import Verif.Output.Model

/-!
# Specification of the records (C34, C50, C51)
-/

namespace PGM.Output

open PGM.Container PGM.Input PGM.Update PGM.Topology PGM.PowerFlow PGM.Component

variable {K : Type} {σ : Symm}

/-- Every place that the topology assigned to a component exists in the results of the solvers. -/
structure Fits (O : Objects) (sol : List (Sol σ)) : Prop where
  node : ∀ s m, O.node s = some m → ∃ x, sol[m.1]? = some x ∧ m.2 < x.u.length ∧ m.2 < x.busInjection.length
  branch : ∀ s m, O.branch s = some m → ∃ x, sol[m.1]? = some x ∧ m.2 < x.branch.length
  branch3 : ∀ s m, O.branch3 s = some m → ∃ x, sol[m.1]? = some x ∧ ∀ j, m.2 j < x.branch.length
  source : ∀ s m, O.source s = some m → ∃ x, sol[m.1]? = some x ∧ m.2 < x.source.length
  shunt : ∀ s m, O.shunt s = some m → ∃ x, sol[m.1]? = some x ∧ m.2 < x.shunt.length
  loadGen : ∀ s m, O.loadGen s = some m → ∃ x, sol[m.1]? = some x ∧ m.2 < x.loadGen.length

/-- The types of branches. -/
def branchTypes : List CompType := [.line, .asymLine, .link, .genericBranch, .transformer]

/-- The types that are numbered together, in the order in which they are numbered. -/
def family : CompType → List CompType
  | .line | .asymLine | .link | .genericBranch | .transformer => branchTypes
  | .symGen | .asymGen | .symLoad | .asymLoad => [.symGen, .asymGen, .symLoad, .asymLoad]
  | .symPowerSensor | .asymPowerSensor => [.symPowerSensor, .asymPowerSensor]
  | .symVoltageSensor | .asymVoltageSensor => [.symVoltageSensor, .asymVoltageSensor]
  | .symCurrentSensor | .asymCurrentSensor => [.symCurrentSensor, .asymCurrentSensor]
  | .tapRegulator | .voltageRegulator => [.tapRegulator, .voltageRegulator]
  | t => [t]

/-- The number of component `k` of a type among the types that are numbered together: components of the earlier types come first. -/
def position (D : CompType → List (Elem K)) (t : CompType) (k : Nat) : Nat :=
  (((family t).takeWhile fun t' => t' ≠ t).map fun t' => (D t').length).sum + k

/-- The total of a value over the appliances of a type at the node with the given ID. -/
def attached (D : CompType → List (Elem K)) (id : Int) (t : CompType) (records : List (Option (ApplOut σ))) (val : ApplOut σ → ℝ) : ℝ :=
  (((D t).zip records).map fun x => if x.1.n1 = id then (x.2.map val).getD 0 else 0).sum

/-! ## What is measured -/

/-- The measured active power in the form of the calculation: the total of the three phases, or one third of the total in every phase. -/
noncomputable def measuredP (σ : Symm) (d : PowerData) : RV σ ℝ :=
  match σ, d with
  | .sym, .sym p _ => fun _ => p
  | .sym, .asym p _ => fun _ => p 0 + p 1 + p 2
  | .asym, .sym p _ => fun _ => p / 3
  | .asym, .asym p _ => p

/-- The measured reactive power. -/
noncomputable def measuredQ (σ : Symm) (d : PowerData) : RV σ ℝ :=
  match σ, d with
  | .sym, .sym _ q => fun _ => q
  | .sym, .asym _ q => fun _ => q 0 + q 1 + q 2
  | .asym, .sym _ q => fun _ => q / 3
  | .asym, .asym _ q => q

/-- The powers reported at a terminal of the component with the given ID. The terminal types are 0, 1: from/to side of a branch, 2: source, 3: shunt, 4: load,
5: generator, 6-8: side of a three-winding transformer, 9: node. At a node it is the injection into the bus of the node. -/
inductive Reports (A : Attr) (c : Container (Comp K)) (O : Objects) (sol : List (Sol σ)) : Int → Int → RV σ ℝ → RV σ ℝ → Prop
  | branchFrom (t : CompType) (r : BranchOut σ) : t ∈ branchTypes → some r ∈ branchRecords t A c O sol → Reports A c O sol 0 r.id r.pFrom r.qFrom
  | branchTo (t : CompType) (r : BranchOut σ) : t ∈ branchTypes → some r ∈ branchRecords t A c O sol → Reports A c O sol 1 r.id r.pTo r.qTo
  | source (r : ApplOut σ) : some r ∈ applRecords .source A c O sol → Reports A c O sol 2 r.id r.p r.q
  | shunt (r : ApplOut σ) : some r ∈ applRecords .shunt A c O sol → Reports A c O sol 3 r.id r.p r.q
  | load (t : CompType) (r : ApplOut σ) : t ∈ [CompType.symLoad, .asymLoad] → some r ∈ applRecords t A c O sol → Reports A c O sol 4 r.id r.p r.q
  | generator (t : CompType) (r : ApplOut σ) : t ∈ [CompType.symGen, .asymGen] → some r ∈ applRecords t A c O sol → Reports A c O sol 5 r.id r.p r.q
  | branch3 (j : Fin 3) (r : Branch3Out σ) : some r ∈ branch3Records A c O sol → Reports A c O sol (6 + (j : Nat)) r.id (r.p j) (r.q j)
  | node (id : Int) (s : Nat) (m : Nat × Nat) (x : Sol σ) (v : CV σ) : seqById .node c id = some s → O.node s = some m → sol[m.1]? = some x →
      x.busInjection[m.2]? = some v → Reports A c O sol 9 id (fun j => basePower σ * (v j).re) (fun j => basePower σ * (v j).im)
  | nodeOff (id : Int) (s : Nat) : seqById .node c id = some s → O.node s = none → Reports A c O sol 9 id 0 0

/-- `δ` is the angle `θ`, in the half-open interval from -π to π. -/
def IsAngle (δ θ : ℝ) : Prop := -Real.pi < δ ∧ δ ≤ Real.pi ∧ ∃ n : ℤ, δ = θ + n * (2 * Real.pi)

/-- Phasors. -/
noncomputable def phasor (r θ : ℝ) : ℂ := r * Complex.exp (θ * Complex.I)

/-- The positive sequence of three phasors. -/
noncomputable def positiveSequence (z : Fin 3 → ℂ) : ℂ :=
  (z 0 + Complex.exp (2 * Real.pi / 3 * Complex.I) * z 1 + Complex.exp (4 * Real.pi / 3 * Complex.I) * z 2) / 3

/-- What a voltage sensor says about a calculated voltage: the measured magnitude (line-to-line for symmetric calculations, line-to-ground per phase for
asymmetric calculations) and the measured angle, if there is one. The voltages of a symmetric sensor are a positive-sequence system: the phases are 120 degrees apart. -/
inductive MeasuresVoltage : (σ : Symm) → VoltageData → Fin σ.phases → ℝ → Option ℝ → Prop
  | symSym (u : ℝ) (θ : Option ℝ) (j : Fin Symm.sym.phases) : MeasuresVoltage .sym (.sym u θ) j u θ
  | symAsymAngle (u θ : Fin 3 → ℝ) (j : Fin Symm.sym.phases) :
      MeasuresVoltage .sym (.asym u fun i => some (θ i)) j (√3 * ‖positiveSequence fun i => phasor (u i) (θ i)‖)
        (some (positiveSequence fun i => phasor (u i) (θ i)).arg)
  | symAsym (u : Fin 3 → ℝ) (θ : Fin 3 → Option ℝ) (i : Fin 3) (j : Fin Symm.sym.phases) (h : θ i = none) :
      MeasuresVoltage .sym (.asym u θ) j (√3 * ((u 0 + u 1 + u 2) / 3)) none
  | asymSym (u : ℝ) (θ : Option ℝ) (j : Fin 3) : MeasuresVoltage .asym (.sym u θ) j (u / √3) (θ.map fun θ => θ - j * (2 * Real.pi / 3))
  | asymAsym (u : Fin 3 → ℝ) (θ : Fin 3 → Option ℝ) (j : Fin 3) : MeasuresVoltage .asym (.asym u θ) j (u j) (θ j)

/-- What a current sensor says: magnitude in ampere and angle. -/
inductive MeasuresCurrent : (σ : Symm) → CurrentData → Fin σ.phases → ℝ → ℝ → Prop
  | symSym (i θ : ℝ) (j : Fin Symm.sym.phases) : MeasuresCurrent .sym (.sym i θ) j i θ
  | symAsym (i θ : Fin 3 → ℝ) (j : Fin Symm.sym.phases) :
      MeasuresCurrent .sym (.asym i θ) j ‖positiveSequence fun m => phasor (i m) (θ m)‖ (positiveSequence fun m => phasor (i m) (θ m)).arg
  | asymSym (i θ : ℝ) (j : Fin 3) : MeasuresCurrent .asym (.sym i θ) j i (θ - j * (2 * Real.pi / 3))
  | asymAsym (i θ : Fin 3 → ℝ) (j : Fin 3) : MeasuresCurrent .asym (.asym i θ) j (i j) (θ j)

/-- The result of the solver for the branch, or the side of a three-winding transformer, at which a current sensor is: the current. Terminal types as above. -/
inductive CalculatesCurrent (c : Container (Comp K)) (O : Objects) (sol : List (Sol σ)) : Int → Int → CV σ → Prop
  | branchFrom (id : Int) (s : Nat) (m : Nat × Nat) (x : Sol σ) (r : BranchSol σ) : seqById .branch c id = some s → O.branch s = some m →
      sol[m.1]? = some x → x.branch[m.2]? = some r → CalculatesCurrent c O sol 0 id r.iF
  | branchTo (id : Int) (s : Nat) (m : Nat × Nat) (x : Sol σ) (r : BranchSol σ) : seqById .branch c id = some s → O.branch s = some m →
      sol[m.1]? = some x → x.branch[m.2]? = some r → CalculatesCurrent c O sol 1 id r.iT
  | branch3 (j : Fin 3) (id : Int) (s : Nat) (m : Nat × (Fin 3 → Nat)) (x : Sol σ) (r : BranchSol σ) : seqById .branch3 c id = some s →
      O.branch3 s = some m → sol[m.1]? = some x → x.branch[m.2 j]? = some r → CalculatesCurrent c O sol (6 + (j : Nat)) id r.iF

/-- The current reported at a terminal. -/
inductive ReportsCurrent (A : Attr) (c : Container (Comp K)) (O : Objects) (sol : List (Sol σ)) : Int → Int → Bool → RV σ ℝ → Prop
  | branchFrom (t : CompType) (r : BranchOut σ) : t ∈ branchTypes → some r ∈ branchRecords t A c O sol →
      ReportsCurrent A c O sol 0 r.id r.energized r.iFrom
  | branchTo (t : CompType) (r : BranchOut σ) : t ∈ branchTypes → some r ∈ branchRecords t A c O sol →
      ReportsCurrent A c O sol 1 r.id r.energized r.iTo
  | branch3 (j : Fin 3) (r : Branch3Out σ) : some r ∈ branch3Records A c O sol → ReportsCurrent A c O sol (6 + (j : Nat)) r.id r.energized (r.i j)

end PGM.Output
