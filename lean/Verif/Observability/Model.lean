import Verif.YBus.Model

/-!
# The observability check

Model of `math_solver/observability.hpp`, all of it except the overloads for tests (lines 584-595, 629-634), for one island.

Simplifications. Of `MeasuredValues` (C19) only the predicates that the check calls are kept. The vectors of `int8_t` that only ever
hold 0 and 1 are functions from the index to `Bool`, summed over their length; all indices come from the structure of the admittance
matrix (C14) and are in range. `total_injections`, an `int8_t` that is incremented once per bus, is an integer that is wrapped after
every increment. `bus_injections` is written and never read and is left out. A pointer to a status is a `Ref`. Vectors of
`BusNeighbourhoodInfo` are functions from the bus. Asserts are not modelled. A thrown `NotObservableError` is an outcome.
-/

namespace PGM.Observability

open PGM.YBus

/-! ## The measurements -/

/-- The predicates of `MeasuredValues`, `measured_values.hpp` lines 77-86. -/
structure Meas where
  /-- `has_voltage`. -/
  voltage : Nat → Bool
  /-- `has_angle_measurement`. -/
  angle : Nat → Bool
  /-- `has_bus_injection`: all appliances of the bus are measured, or their sum is, or it has none. -/
  injection : Nat → Bool
  fromPower : Nat → Bool
  toPower : Nat → Bool
  fromCurrent : Nat → Bool
  toCurrent : Nat → Bool
  /-- `has_global_angle_current`. -/
  globalAngleCurrent : Bool

/-- `has_voltage_measurements`, `measured_values.hpp` lines 77 and 281. -/
def Meas.anyVoltage (M : Meas) (n : Nat) : Bool := (List.range n).any M.voltage

/-- `has_flow_sensor`, lines 80-83. -/
def Meas.flow (M : Meas) (branch : Nat) : Bool :=
  M.fromPower branch || M.toPower branch || M.fromCurrent branch || M.toCurrent branch

/-- `is_branch_connected`, lines 85-87. -/
def isConnected (T : Topo) (branch : Nat) : Bool :=
  match T.branches[branch]? with
  | some (some _, some _) => true
  | _ => false

/-! ## Scanning the sensors -/

/-- `ConnectivityStatus`, lines 40-48, except `is_not_connected`, which is never assigned. -/
inductive Status where
  | none
  | nodeMeasured
  | fromNode
  | toNode
  | nativeUnused
  | nativeConsumed
  deriving DecidableEq

/-- `BusNeighbourhoodInfo::neighbour`, lines 51-54. -/
structure Neighbour where
  bus : Nat
  status : Status
  deriving DecidableEq

/-- `std::vector<BusNeighbourhoodInfo>`, lines 50-58. -/
structure Info where
  node : Nat → Status
  nbrs : Nat → List Neighbour

/-- `ObservabilitySensorsResult` and the neighbourhood info, lines 33-39 and 72. -/
structure Scan where
  flow : Nat → Bool
  phasor : Nat → Bool
  total : Int
  ill : Bool
  info : Info

/-- The initial values, lines 75-78. -/
def Scan.start : Scan where
  flow := fun _ => false
  phasor := fun _ => false
  total := 0
  ill := false
  info := ⟨fun _ => .none, fun _ => []⟩

/-- The result of an assignment to an `int8_t`. -/
def wrap8 (x : Int) : Int := (x + 128) % 256 - 128

/-- The loop over the elements of an entry, lines 104-124: the neighbours that are added, and whether a flow sensor was found. -/
def elemLoop (T : Topo) (M : Meas) (col : Nat) : List Elem → List Neighbour × Bool
  | [] => ([], false)
  | e :: es =>
    if e.type = .shunt then elemLoop T M col es
    else if M.flow e.idx && isConnected T e.idx then ([⟨col, .nativeUnused⟩], true)
    else (⟨col, .none⟩ :: (elemLoop T M col es).1, (elemLoop T M col es).2)

/-- One entry of the upper triangle, lines 103-126; the flag is `has_at_least_one_sensor`. -/
def scanEntry (T : Topo) (S : Structure) (M : Meas) (bus : Nat) (s : Scan × Bool) (entry : Nat) : Scan × Bool :=
  let r := elemLoop T M (S.colIndices[entry]?.getD 0) (elementsOf S entry)
  ({ s.1 with
      flow := if r.2 then Function.update s.1.flow entry true else s.1.flow
      info := { s.1.info with nbrs := Function.update s.1.info.nbrs bus (s.1.info.nbrs bus ++ r.1) } },
    s.2 || r.2)

/-- The injection of a bus, lines 95-101. -/
def scanInjection (S : Structure) (M : Meas) (bus : Nat) (s : Scan) : Scan × Bool :=
  if M.injection bus then
    ({ s with
        total := wrap8 (s.total + 1)
        flow := Function.update s.flow (S.busEntry[bus]?.getD 0) true
        info := { s.info with node := Function.update s.info.node bus .nodeMeasured } }, true)
  else (s, false)

/-- The voltage phasor of a bus and the conditioning, lines 127-135. -/
def scanPhasor (n : Nat) (M : Meas) (bus : Nat) (s : Scan × Bool) : Scan :=
  let found := s.2 || (M.voltage bus && M.angle bus)
  { s.1 with
    phasor := if M.voltage bus && M.angle bus then Function.update s.1.phasor bus true else s.1.phasor
    ill := s.1.ill || (!found && decide (bus + 1 ≠ n)) }

/-- One bus, lines 89-136. -/
def scanBus (T : Topo) (S : Structure) (M : Meas) (s : Scan) (bus : Nat) : Scan :=
  let entry := S.busEntry[bus]?.getD 0
  let upper := List.range' (entry + 1) (S.rowIndptr[bus + 1]?.getD 0 - (entry + 1))
  scanPhasor T.nBus M bus (upper.foldl (scanEntry T S M bus) (scanInjection S M bus s))

/-- `scan_network_sensors`, lines 69-138. -/
def scan (T : Topo) (S : Structure) (M : Meas) : Scan := (List.range T.nBus).foldl (scanBus T S M) Scan.start

/-! ## Radial grids -/

/-- The sensors that `assign_independent_sensors_radial` re-assigns. -/
structure Sensors where
  flow : Nat → Bool
  phasor : Nat → Bool

/-- Lines 166-180: an unmeasured branch takes the injection of its lower bus, else that of its upper bus, else the voltage phasor of
the lower bus, else that of the bus with the next number. -/
def steal (bus branch own upper : Nat) (s : Sensors) : Sensors :=
  if s.flow branch then s
  else if s.flow own then { s with flow := Function.update (Function.update s.flow branch true) own false }
  else if s.flow upper then { s with flow := Function.update (Function.update s.flow branch true) upper false }
  else if s.phasor bus then ⟨Function.update s.flow branch true, Function.update s.phasor bus false⟩
  else if s.phasor (bus + 1) then ⟨Function.update s.flow branch true, Function.update s.phasor (bus + 1) false⟩
  else s

/-- One bus, lines 151-183. -/
def assignBus (S : Structure) (s : Sensors) (bus : Nat) : Sensors :=
  let own := S.busEntry[bus]?.getD 0
  let upstream := S.colIndices[own + 1]?.getD 0
  let s := steal bus (own + 1) own (S.busEntry[upstream]?.getD 0) s
  { s with flow := Function.update s.flow own false }

/-- `assign_independent_sensors_radial`, lines 147-187. -/
def assignRadial (n : Nat) (S : Structure) (s : Sensors) : Sensors :=
  let s := (List.range (n - 1)).foldl (assignBus S) s
  { s with flow := Function.update s.flow (S.busEntry[n - 1]?.getD 0) false }

/-- `std::reduce` over a vector of zeros and ones. -/
def count (n : Nat) (v : Nat → Bool) : Nat := (List.range n).countP v

/-- The texts of the `NotObservableError`s. -/
inductive Reason where
  | noVoltage
  | tooFewPower
  | tooFewPhasor
  | noReference
  | dependent
  | meshed
  deriving DecidableEq

/-- `necessary_condition`, lines 189-215. -/
def necessary (n nFlow nPhasor : Nat) (globalAngleCurrent : Bool) : Except Reason Unit :=
  if nPhasor = 0 ∧ nFlow + 1 < n then .error .tooFewPower
  else if 0 < nPhasor ∧ nFlow + nPhasor < n then .error .tooFewPhasor
  else if globalAngleCurrent = true ∧ nPhasor = 0 then .error .noReference
  else .ok ()

/-- `sufficient_condition_radial_with_voltage_phasor`, lines 217-242. -/
def sufficientRadial (n : Nat) (S : Structure) (s : Sensors) (nPhasor : Nat) : Except Reason Unit :=
  let s := assignRadial n S s
  if count S.nnz s.flow + 1 < n ∨ (0 < nPhasor ∧ count n s.phasor < 1) then .error .dependent else .ok ()

/-! ## Meshed grids -/

/-- One neighbour in `complete_bidirectional_neighbourhood_info`, lines 247-255. -/
def completeOne (bus : Nat) (I : Info) (nb : Neighbour) : Info :=
  if (I.nbrs nb.bus).any fun x => x.bus == bus then I
  else { I with nbrs := Function.update I.nbrs nb.bus (I.nbrs nb.bus ++ [⟨bus, nb.status⟩]) }

/-- `complete_bidirectional_neighbourhood_info`, lines 244-257. A bus is never its own neighbour, so the list that is traversed does
not grow. -/
def complete (n : Nat) (I : Info) : Info :=
  (List.range n).foldl (fun I bus => (I.nbrs bus).foldl (completeOne bus) I) I

/-- `prepare_starting_nodes`, lines 259-292. -/
def startingNodes (n : Nat) (I : Info) : List Nat :=
  let first := (List.range n).filter fun b =>
    decide (I.node b = .none) && (I.nbrs b).all fun x => decide (x.status ≠ .nativeUnused)
  let second := (List.range n).filter fun b => decide (I.node b = .none)
  if first ≠ [] then first else if second ≠ [] then second else [0]

/-- A pointer to a status: that of a bus, or that of a position in the list of neighbours of a bus. -/
inductive Ref where
  | node (bus : Nat)
  | nbr (bus pos : Nat)
  deriving DecidableEq

/-- Reads through a pointer. -/
def Info.get (I : Info) : Ref → Status
  | .node b => I.node b
  | .nbr b i => ((I.nbrs b)[i]?.map (·.status)).getD .none

/-- Writes through a pointer. -/
def Info.put (I : Info) (r : Ref) (v : Status) : Info :=
  match r with
  | .node b => { I with node := Function.update I.node b v }
  | .nbr b i => { I with nbrs := Function.update I.nbrs b ((I.nbrs b).modify i fun x => { x with status := v }) }

/-- `SpanningTreeContext`, lines 304-320, with the vectors it points to. -/
structure Ctx where
  info : Info
  mods : List (Ref × Status)
  visited : Nat → Bool
  track : List (Nat × Nat)
  count : Nat
  current : Nat
  downwind : Bool

/-- `modify_status`, lines 314-319. -/
def Ctx.modify (c : Ctx) (r : Ref) (v : Status) : Ctx :=
  if c.info.get r = v then c else { c with info := c.info.put r v, mods := c.mods ++ [(r, c.info.get r)] }

/-- Marks a bus as visited and counts it, lines 324-327, 362-365, 397-404. -/
def Ctx.visit (c : Ctx) (b : Nat) : Ctx :=
  if c.visited b then c else { c with visited := Function.update c.visited b true, count := c.count + 1 }

/-- Marks a bus that is known to be unvisited, lines 333-334, 366-367. -/
def Ctx.visitNew (c : Ctx) (b : Nat) : Ctx := { c with visited := Function.update c.visited b true, count := c.count + 1 }

/-- Modifies the first neighbour of `b` that is the bus `other`: the loops of lines 339-344, 372-378, 409-414, 472-487. -/
def Ctx.modifyReverse (c : Ctx) (b other : Nat) (v : Status) : Ctx :=
  match (c.info.nbrs b).findIdx? fun x => x.bus == other with
  | some i => c.modify (.nbr b i) v
  | none => c

/-- The bus of a neighbour. -/
def Ctx.nbrBus (c : Ctx) (i : Nat) : Nat := (((c.info.nbrs c.current)[i]?).map (·.bus)).getD 0

/-- `try_native_edge_measurements`, lines 323-353. The first neighbour that qualifies is taken; `none` if there is none, with the
current bus visited. -/
def tryNative (c : Ctx) : Ctx × Bool :=
  let c := c.visit c.current
  match (c.info.nbrs c.current).findIdx? fun x => decide (x.status = .nativeUnused) && !c.visited x.bus with
  | none => (c, false)
  | some i =>
    let b := c.nbrBus i
    let c := { c with track := c.track ++ [(c.current, b)] }
    let c := c.visitNew b
    let c := c.modify (.nbr c.current i) .nativeConsumed
    let c := c.modifyReverse b c.current .nativeConsumed
    ({ c with downwind := true, current := b }, true)

/-- `try_downwind_measurement`, lines 356-390. -/
def tryDownwind (c : Ctx) (noMeasurement : Bool) : Ctx × Bool :=
  if !noMeasurement && c.downwind then
    match (c.info.nbrs c.current).findIdx? fun x => decide (x.status = .none) && !c.visited x.bus with
    | none => (c, false)
    | some i =>
      let b := c.nbrBus i
      let c := { c with track := c.track ++ [(c.current, b)] }
      let c := c.visit c.current
      let c := c.visitNew b
      let c := c.modify (.nbr c.current i) .fromNode
      let c := c.modifyReverse b c.current .toNode
      let c := c.modify (.node c.current) .none
      ({ c with current := b }, true)
  else (c, false)

/-- `process_edge`, lines 393-426. -/
def processEdge (c : Ctx) (i : Nat) (useCurrent : Bool) : Ctx × Bool :=
  let b := c.nbrBus i
  let c := { c with track := c.track ++ [(c.current, b)] }
  let c := c.visit c.current
  let c := c.visit b
  let c := c.modify (.nbr c.current i) .fromNode
  let c := c.modifyReverse b c.current .toNode
  let c := c.modify (.node (if useCurrent then c.current else b)) .none
  ({ c with current := b }, true)

/-- `try_general_connection_rules`, lines 429-451: the first unvisited neighbour such that this bus or that one is measured. -/
def tryGeneral (c : Ctx) (noMeasurement : Bool) : Ctx × Bool :=
  match (c.info.nbrs c.current).findIdx? fun x =>
      !c.visited x.bus && (!noMeasurement || decide (c.info.node x.bus ≠ .none)) with
  | none => (c, false)
  | some i => processEdge c i (decide (c.info.node (c.nbrBus i) = .none))

/-- `reassign_nodal_measurement`, lines 454-488. -/
def reassign (c : Ctx) (src dst : Nat) : Ctx :=
  if (((c.info.nbrs src).find? fun x => x.bus == dst).map (·.status)) = some .nativeConsumed then c
  else
    let c := c.modify (.node dst) .nodeMeasured
    let c := c.modify (.node src) .none
    let c := c.modifyReverse src dst .toNode
    c.modifyReverse dst src .fromNode

/-- `try_backtrack`, lines 491-517. -/
def tryBacktrack (c : Ctx) : Ctx × Bool :=
  match c.track.getLast? with
  | none => (c, false)
  | some (a, b) =>
    let c := { c with track := c.track.dropLast }
    let dst := if a = c.current then b else a
    let c := if c.downwind && decide (c.info.node c.current = .nodeMeasured) then reassign c c.current dst else c
    ({ c with current := dst }, true)

/-- One iteration, lines 563-577: the new context, and whether there was progress. -/
def stepTree (c : Ctx) : Ctx × Bool :=
  let no := decide (c.info.node c.current = .none)
  let r := tryNative c
  if r.2 then r else
    let r := tryDownwind r.1 no
    if r.2 then r else
      let r := tryGeneral r.1 no
      if r.2 then r else tryBacktrack r.1

/-- The loop, lines 561-578, with the number of iterations that remain. -/
def treeLoop (n : Nat) : Nat → Ctx → Ctx
  | 0, c => c
  | k + 1, c => if n ≤ c.count then c else
    let r := stepTree c
    if r.2 then treeLoop n k r.1 else r.1

/-- The number of iterations, lines 542-559. Overflow is not modelled. -/
def maxIterations (n : Nat) (I : Info) : Nat :=
  let edges := ((List.range n).map fun b => (I.nbrs b).length).sum
  n * max 2 (edges / n) * 3

/-- `find_spanning_tree_from_node_impl`, lines 519-582. -/
def findTree (n : Nat) (I : Info) (start : Nat) : Ctx :=
  treeLoop n (maxIterations n I) ⟨I, [], fun _ => false, [], 0, start, false⟩

/-- Lines 619-622: the modifications are undone in the order in which they were made. -/
def rollback (I : Info) (mods : List (Ref × Status)) : Info := mods.foldl (fun I m => I.put m.1 m.2) I

/-- The loop over the candidates, lines 609-623. -/
def tryStarts (n : Nat) : List Nat → Info → Bool
  | [], _ => false
  | s :: ss, I =>
    let c := findTree n I s
    if c.count = n then true else tryStarts n ss (rollback c.info c.mods)

/-- `sufficient_condition_meshed_without_voltage_phasor`, lines 597-627. -/
def sufficientMeshed (n : Nat) (I : Info) : Except Reason Unit :=
  if tryStarts n (startingNodes n I) I then .ok () else .error .meshed

/-! ## The check -/

/-- What the check does: it throws, or it returns `is_observable` and `is_possibly_ill_conditioned`. -/
inductive Outcome where
  | throws (r : Reason)
  | returns (observable ill : Bool)
  deriving DecidableEq

/-- The sufficient conditions, lines 683-693. -/
def conclude (ill : Bool) : Except Reason Unit → Outcome
  | .error r => .throws r
  | .ok () => .returns true ill

/-- `observability_check`, lines 645-694, for an island that `topo.is_radial` says is radial or not. -/
def check (T : Topo) (radial : Bool) (S : Structure) (M : Meas) : Outcome :=
  if !M.anyVoltage T.nBus then .throws .noVoltage else
  let s := scan T S M
  let I := complete T.nBus s.info
  let nPhasor := count T.nBus s.phasor
  match necessary T.nBus (count S.nnz s.flow) nPhasor M.globalAngleCurrent with
  | .error r => .throws r
  | .ok () =>
    if 1 < nPhasor ∧ radial = false then .returns false s.ill
    else if s.total > (T.nBus : Int) - 2 then .returns true s.ill
    else conclude s.ill (if radial then sufficientRadial T.nBus S ⟨s.flow, s.phasor⟩ nPhasor else sufficientMeshed T.nBus I)

end PGM.Observability
