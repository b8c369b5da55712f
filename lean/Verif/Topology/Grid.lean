import Verif.Topology.Props

/-!
# From the grid to the results of the power flow (C12, C13, C14, C16, C17), and examples
-/

namespace PGM.Topology

open PGM.YBus PGM.PowerFlow PGM.Lu PGM.Component

variable {A : Type} [AddGroup A]

theorem dense_range {G : Grid A} (h : G.Valid) {s : State A} {c : Coupled} (hb : Topology.build G = some (s, c)) {criterion : Nat → Nat → Bool}
    {node : List Nat} {include_ : Nat → Bool} {dense : Nat → List Nat} {coup : Nat → Option (Nat × Nat)}
    (hd : coupleAppliances criterion s node include_ = some (dense, coup)) {g : Nat} (hg : g < s.islands.length) : ∀ p ∈ dense g, p < buses s g := by
  obtain ⟨dense', coup', h1, _, h3, h4⟩ := appliances_coupled h hb criterion node include_
  rw [hd] at h1
  simp only [Option.some.injEq, Prod.mk.injEq] at h1
  obtain ⟨rfl, rfl⟩ := h1
  intro p hp
  obtain ⟨k, hk, e⟩ := List.mem_iff_getElem.mp hp
  obtain ⟨i, k1, k2, _⟩ := h4 g k hg hk
  obtain ⟨o, k3, k4⟩ := h3 i _ g k (List.getElem?_eq_getElem k1) k2
  rw [List.getElem?_eq_getElem hk, e] at k4
  injection k4 with k4
  rw [k4]
  exact ((numbering h hb).1 _ _ _ k3).2.2

/-- An island of a grid, as it is given to the solvers: the topology with the couplings of sources, loads and shunts, the structure of the
admittance matrix that is built from it, and the matrix after any history of updates. The order `criterion` of the appliances is that of any
of the calculations. -/
structure FromGrid (G : Grid A) (sourceNode loadNode shuntNode : List Nat) (sourceOn : Nat → Bool) {σ : Symm} (N : PfNet σ) (s : State A) (c : Coupled)
    (g : Nat) : Prop where
  build : Topology.build G = some (s, c)
  island : ∃ I dS dL dH kS kL kH cS cL cH, s.islands[g]? = some I ∧ coupleAppliances cS s sourceNode sourceOn = some (dS, kS) ∧
    coupleAppliances cL s loadNode (fun _ => true) = some (dL, kL) ∧ coupleAppliances cH s shuntNode (fun _ => true) = some (dH, kH) ∧
    N.T = islandTopo s c dH g I ∧ N.sourceBus = dS g ∧ N.loadBus = dL g
  structure_ : YBus.build N.T = some N.S
  matrix : ∃ (y0 : YBus (CM σ)) (P : Param (CM σ)) (incs : List (Increment (CM σ))), N.y = incs.foldl (updateIncrement N.S) (updateAdmittance N.S y0 P)

theorem FromGrid.valid {G : Grid A} (h : G.Valid) {sn ln hn : List Nat} {so : Nat → Bool} {σ : Symm} {N : PfNet σ} {s : State A} {c : Coupled} {g : Nat}
    (hf : FromGrid G sn ln hn so N s c g) : N.Valid ∧ FillClosed N.T := by
  obtain ⟨I, dS, dL, dH, kS, kL, kH, cS, cL, cH, hI, h1, h2, h3, h4, h5, h6⟩ := hf.island
  have hg : g < s.islands.length := by
    by_contra hn
    rw [List.getElem?_eq_none (by omega)] at hI
    cases hI
  refine ⟨⟨?_, hf.structure_, hf.matrix, ?_, ?_⟩, ?_⟩
  · rw [h4]; exact island_valid h hf.build hI dH (dense_range h hf.build h3 hg)
  · rw [h4, h5]; exact dense_range h hf.build h1 hg
  · rw [h4, h6]; exact dense_range h hf.build h2 hg
  · rw [h4]; exact island_closed h hf.build hI dH

/-- **C12/C14: the structure of the admittance matrix is built for every island of every grid**: no assertion fails. -/
theorem grid_structure {G : Grid A} (h : G.Valid) {s : State A} {c : Coupled} (hb : Topology.build G = some (s, c)) {g : Nat} {I : Island A}
    (hI : s.islands[g]? = some I) (shunts : Nat → List Nat) (hsh : ∀ p ∈ shunts g, p < buses s g) :
    ∃ S, YBus.build (islandTopo s c shunts g I) = some S ∧ IsStructure (islandTopo s c shunts g I) S :=
  structure_correct (island_valid h hb hI shunts hsh)

/-- **C17, the linear method on any grid**: for every island the calculation gives results or reports a singular matrix; the voltages are the only
solution of the network equations, Kirchhoff's law holds at every bus, and every source current is the one that its internal admittance gives. -/
theorem grid_linear {G : Grid A} (h : G.Valid) {sn ln hn : List Nat} {so : Nat → Bool} {σ : Symm} {N : PfNet σ} {s : State A} {c : Coupled} {g : Nat}
    (hf : FromGrid G sn ln hn so N s c g) (inp : PfInput σ) (perms : List (BlockPerm σ.phases)) (hp : perms.length = N.T.nBus) :
    linearPowerFlow N inp perms = .error .singular ∨ ∃ out, linearPowerFlow N inp perms = .ok out ∧
      (∀ u, Solves N (linearEquations N inp) u ↔ ∀ b, b < N.T.nBus → u b = out.u b) ∧
      ∀ b, b < N.T.nBus → N.SourcesOk b → (∀ p, out.u b p ≠ 0) →
        Kirchhoff N out b ∧ ∀ k, N.sourceBus[k]? = some b → (out.source k).cur = physicalSource N inp (out.u b) k := by
  obtain ⟨hv, hc⟩ := hf.valid h
  rcases linear_total hv hc inp perms hp with e | ⟨out, e⟩
  · exact Or.inl e
  · exact Or.inr ⟨out, e, linear_results hv hc inp perms hp out e⟩

/-! ## Examples

`exGrid` is the grid of `tests/cpp_unit_tests/test_topology.cpp`, with a parallel branch, a branch from a node to itself and a branch with three
sides that are all at one node in addition. -/

/-- A branch of the examples. -/
def exBranch (i j : Nat) (a b : Bool) (shift : Int) : Branch Int := ⟨i, j, a, b, shift⟩

/-- A branch with three sides of the examples. -/
def exBranch3 (n : Nat × Nat × Nat) (c : Bool × Bool × Bool) (a : Int × Int × Int) : Branch3 Int :=
  ⟨fun k => if k = 0 then n.1 else if k = 1 then n.2.1 else n.2.2, fun k => if k = 0 then c.1 else if k = 1 then c.2.1 else c.2.2,
    fun k => if k = 0 then a.1 else if k = 1 then a.2.1 else a.2.2⟩

/-- The grid of the examples. -/
def exGrid : Grid Int :=
  ⟨14, [exBranch 0 1 true true 0, exBranch 0 3 true true 1, exBranch 3 4 true false 0, exBranch 7 8 true true 0, exBranch 6 7 false true 0,
      exBranch 4 2 false true 0, exBranch 5 4 true true 0, exBranch 4 5 true true 0, exBranch 1 1 true true 0],
    [exBranch3 (1, 3, 2) (true, true, true) (0, -1, 0), exBranch3 (11, 7, 8) (true, true, true) (0, 0, 0),
      exBranch3 (10, 6, 5) (false, true, true) (0, 0, 0), exBranch3 (4, 12, 12) (true, true, true) (0, 0, 0),
      exBranch3 (13, 13, 13) (true, true, true) (0, 0, 0)],
    [(0, true), (5, true), (9, false), (3, false), (13, true)]⟩

theorem exGrid_valid : exGrid.Valid := ⟨by decide +kernel, by decide +kernel, by decide +kernel⟩

/-- What is built, as data that can be compared. -/
def exBuilt : Option (List (Option (Nat × Nat)) × List (Nat × Bool × List Int × List (Nat × Nat)) × List (List (Option Nat × Option Nat)) ×
    List (Option (Nat × Nat))) :=
  (Topology.build exGrid).map fun r => ((List.range exGrid.nTotal).map r.1.node,
    r.1.islands.map fun I => (I.slack, I.radial, I.phaseShift, I.fillIn), (List.range r.1.islands.length).map r.2.branchBus, r.2.branch)

set_option synthInstance.maxHeartbeats 200000 in
set_option synthInstance.maxSize 1000 in
/-- Three islands; nodes 7, 8, 9, 10 and 11 are not energised; the first island has a cycle and a fill-in, and a bus behind a phase shift. -/
theorem exBuilt_eq : exBuilt = some
    ([some (0, 1), some (0, 2), some (0, 0), some (0, 4), some (1, 4), some (1, 5), some (1, 0), none, none, none, none,
      none, some (1, 2), some (2, 1), some (0, 3), none, some (1, 1), some (1, 3), some (2, 0)],
    [(1, false, [0, 0, 0, 0, -1], [(2, 4)]), (5, true, [0, 0, 0, 0, 0, 0], []), (1, true, [0, 0], [])],
    [[(some 1, some 2), (some 1, some 4), (some 4, none), (none, some 0), (some 2, some 2), (some 2, some 3),
        (some 4, some 3), (some 0, some 3)],
      [(some 5, some 4), (some 4, some 5), (none, some 1), (some 0, some 1), (some 5, some 1), (some 4, some 3),
        (some 2, some 3), (some 2, some 3)],
      [(some 1, some 0), (some 1, some 0), (some 1, some 0)]],
    [some (0, 0), some (0, 1), some (0, 2), none, none, some (0, 3), some (1, 0), some (1, 1), some (0, 4)]) := by
  decide +kernel

/-- Node 12 is energised, by way of two branches with three sides and two branches. -/
example : Energised exGrid 12 := by
  obtain ⟨s, c, hb⟩ := build_total exGrid_valid
  rw [← energised_iff exGrid_valid hb]
  have h := exBuilt_eq
  unfold exBuilt at h
  rw [hb] at h
  simp only [Option.map_some, Option.some.injEq, Prod.mk.injEq] at h
  have := congrArg (fun l => l[12]?) h.1
  simp [exGrid, Grid.nTotal] at this
  rw [this]; simp

/-- Node 10 is not: the side of the only branch at it is open. -/
example : ¬Energised exGrid 10 := by
  obtain ⟨s, c, hb⟩ := build_total exGrid_valid
  rw [← energised_iff exGrid_valid hb]
  have h := exBuilt_eq
  unfold exBuilt at h
  rw [hb] at h
  simp only [Option.map_some, Option.some.injEq, Prod.mk.injEq] at h
  have := congrArg (fun l => l[10]?) h.1
  simp [exGrid, Grid.nTotal] at this
  rw [this]; simp

/-- The phase shifts of the grid are consistent: the nodes 3 and 15 are behind a shift of one unit, so that `phase_shift_consistent` applies. -/
example : ∀ y z a, Link exGrid y z a → (fun x => if x = 3 then (-1 : Int) else 0) z = (fun x => if x = 3 then (-1 : Int) else 0) y + a := by
  have h1 : ∀ b ∈ exGrid.branches, b.iConn = true → b.jConn = true →
      (if b.j = 3 then (-1 : Int) else 0) = (if b.i = 3 then (-1 : Int) else 0) + -b.shift := by decide +kernel
  have h2 : ∀ b ∈ exGrid.branch3s, ∀ m, b.conn m = true → (0 : Int) = (if b.node m = 3 then (-1 : Int) else 0) + -b.shift m := by decide +kernel
  have h3 : ∀ k, ¬exGrid.nNode + k = 3 := fun k => by show ¬14 + k = 3; omega
  intro y z a hl
  cases hl with
  | forward hb c1 c2 => exact h1 _ hb c1 c2
  | backward hb c1 c2 => have := h1 _ hb c1 c2; simp only at *; omega
  | inward hk c1 => have := h2 _ (List.mem_of_getElem? hk) _ c1; simp only [h3, if_false]; omega
  | outward hk c1 => have := h2 _ (List.mem_of_getElem? hk) _ c1; simp only [h3, if_false]; omega

/-- A ring of seven nodes with chords: three fill-ins. -/
def exRing : Grid Int :=
  ⟨7, [(0, 1), (1, 2), (2, 3), (3, 4), (4, 5), (0, 5), (1, 4), (6, 0), (6, 2), (5, 1), (3, 1), (6, 1), (2, 1)].map fun e => exBranch e.1 e.2 true true 0,
    [], [(0, true)]⟩

example : exRing.Valid ∧ (Topology.build exRing).map (fun r => r.1.islands.map (·.fillIn)) = some [[(5, 6), (2, 6), (4, 6)]] :=
  ⟨⟨by decide +kernel, by decide +kernel, by decide +kernel⟩, by decide +kernel⟩

/-- Four appliances on the grid, of which the second is not included and the last is at a node that is not energised. -/
example : (Topology.build exGrid).bind (fun r => (coupleAppliances (fun _ _ => true) r.1 [3, 0, 2, 9] (fun i => decide (i ≠ 1))).map
    fun q => ((List.range 3).map q.1, (List.range 4).map q.2)) = some ([[0, 4], [], []], [some (0, 1), none, some (0, 0), none]) := by decide +kernel

/-- There are networks from a grid, for any matrix. -/
theorem exFromGrid (σ : Symm) (P : Param (CM σ)) (y0 : YBus (CM σ)) (a1 a0 : Nat → ℂ) : ∃ (N : PfNet σ) (s : State Int) (c : Coupled),
    FromGrid exGrid [0, 5, 13] [3, 9, 4] [2] (fun _ => true) N s c 0 ∧ N.T.nBus = 5 := by
  obtain ⟨s, c, hb⟩ := build_total exGrid_valid
  have h := exBuilt_eq
  unfold exBuilt at h
  rw [hb] at h
  simp only [Option.map_some, Option.some.injEq, Prod.mk.injEq] at h
  have hl : s.islands.length = 3 := by have := congrArg List.length h.2.1; simpa using this
  have hI : s.islands[0]? = some s.islands[0] := List.getElem?_eq_getElem (by omega)
  obtain ⟨dS, kS, e1, _⟩ := appliances_coupled exGrid_valid hb (fun _ _ => true) [0, 5, 13] (fun _ => true)
  obtain ⟨dL, kL, e2, _⟩ := appliances_coupled exGrid_valid hb (fun _ _ => true) [3, 9, 4] (fun _ => true)
  obtain ⟨dH, kH, e3, _⟩ := appliances_coupled exGrid_valid hb (fun _ _ => true) [2] (fun _ => true)
  obtain ⟨S, hS, _⟩ := grid_structure exGrid_valid hb hI dH (dense_range exGrid_valid hb e3 (by omega))
  refine ⟨⟨islandTopo s c dH 0 s.islands[0], S, updateAdmittance S y0 P, dS 0, dL 0, a1, a0⟩, s, c,
    ⟨hb, ⟨_, dS, dL, dH, kS, kL, kH, _, _, _, hI, e1, e2, e3, rfl, rfl, rfl⟩, hS, ⟨y0, P, [], rfl⟩⟩, ?_⟩
  show buses s 0 = 5
  unfold buses
  rw [hI]
  have := congrArg (fun l => l[0]?) h.2.1
  simp only [List.getElem?_map, hI] at this
  simp at this
  simp [this.2.2.1]

end PGM.Topology
