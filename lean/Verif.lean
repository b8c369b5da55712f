import Verif.Basic
import Verif.Batch.Model
import Verif.Batch.Props
import Verif.Buffer.Layout
import Verif.Buffer.Memory
import Verif.Buffer.Meta
import Verif.Buffer.Model
import Verif.Buffer.Props
import Verif.Buffer.Tables
import Verif.CApi.Model
import Verif.CApi.Options
import Verif.CApi.Props
import Verif.Cache.Copy
import Verif.Cache.Lemmas
import Verif.Cache.Model
import Verif.Cache.Props
import Verif.CalcInput.Lemmas
import Verif.CalcInput.Model
import Verif.CalcInput.Props
import Verif.CalcInput.ShortCircuit
import Verif.CalcInput.Spec
import Verif.Common.Sequence
import Verif.Component.Branch
import Verif.Component.Clock
import Verif.Component.Fault
import Verif.Component.Invariant
import Verif.Component.LoadGen
import Verif.Component.Source
import Verif.Component.Tap
import Verif.Component.ThreeWinding
import Verif.Container.Model
import Verif.Container.Props
import Verif.CppApi.Model
import Verif.CppApi.Props
import Verif.CppApi.Spec
import Verif.Dataset.Dimension
import Verif.Dataset.Lemmas
import Verif.Dataset.Model
import Verif.Dataset.Props
import Verif.Dataset.Spec
import Verif.DatasetApi.Lemmas
import Verif.DatasetApi.Model
import Verif.DatasetApi.Props
import Verif.DatasetApi.Spec
import Verif.Index.Lemmas
import Verif.Index.Lemmas2
import Verif.Index.Lemmas3
import Verif.Index.Model
import Verif.Index.Props
import Verif.Input.Model
import Verif.Input.Props
import Verif.LinkSolver.Backward
import Verif.LinkSolver.Forward
import Verif.LinkSolver.Gauss
import Verif.LinkSolver.Model
import Verif.LinkSolver.Props
import Verif.LinkSolver.Spec
import Verif.Logging.Model
import Verif.Logging.Props
import Verif.Logging.Spec
import Verif.Lu.Accept
import Verif.Lu.Algebra
import Verif.Lu.Condition
import Verif.Lu.Dense
import Verif.Lu.DenseLemmas
import Verif.Lu.DenseProps
import Verif.Lu.Examples
import Verif.Lu.Pattern
import Verif.Lu.Props
import Verif.Lu.Refine
import Verif.Lu.Refinement
import Verif.Lu.Scalar
import Verif.Lu.Solve
import Verif.Lu.Sparse
import Verif.Measured.Statistics
import Verif.Measured.Values
import Verif.Newton.Bound
import Verif.Newton.Build
import Verif.Newton.Derivative
import Verif.Newton.Examples
import Verif.Newton.Model
import Verif.Newton.Prepare
import Verif.Newton.Props
import Verif.Newton.Quadratic
import Verif.Newton.Run
import Verif.Newton.Solve
import Verif.Newton.Spec
import Verif.NewtonSe.Derive
import Verif.NewtonSe.Examples
import Verif.NewtonSe.Model
import Verif.NewtonSe.Optimal
import Verif.NewtonSe.Path
import Verif.NewtonSe.Prepare
import Verif.NewtonSe.Props
import Verif.NewtonSe.Rows
import Verif.NewtonSe.Solve
import Verif.NewtonSe.Spec
import Verif.NewtonSe.Weak
import Verif.NewtonSe.Witness
import Verif.Observability.Conditioning
import Verif.Observability.Examples
import Verif.Observability.Grid
import Verif.Observability.Islands
import Verif.Observability.Model
import Verif.Observability.Props
import Verif.Observability.Radial
import Verif.Observability.Scan
import Verif.Observability.Spec
import Verif.Observability.Tree
import Verif.Ordering.Lemmas
import Verif.Ordering.Loop
import Verif.Ordering.Model
import Verif.Ordering.Props
import Verif.Output.Current
import Verif.Output.CurrentProps
import Verif.Output.Examples
import Verif.Output.Lemmas
import Verif.Output.Model
import Verif.Output.Power
import Verif.Output.Records
import Verif.Output.Spec
import Verif.Output.Voltage
import Verif.Physical.AsymLine
import Verif.Physical.Lemmas
import Verif.Physical.Model
import Verif.Physical.Props
import Verif.Physical.Spec
import Verif.Physical.Transformer
import Verif.PowerFlow.EndToEnd
import Verif.PowerFlow.Iterate
import Verif.PowerFlow.Kirchhoff
import Verif.PowerFlow.Linear
import Verif.PowerFlow.NewtonLimits
import Verif.PowerFlow.NewtonProps
import Verif.PowerFlow.Regulator
import Verif.PowerFlow.RegulatorProps
import Verif.PowerFlow.Result
import Verif.PowerFlow.ResultLemmas
import Verif.Prepare.Validate
import Verif.Reports.Examples
import Verif.Reports.Lemmas
import Verif.Reports.Model
import Verif.Reports.Props
import Verif.Reports.Regulator
import Verif.Reports.RegulatorCalc
import Verif.Reports.RegulatorExamples
import Verif.Reports.RegulatorProps
import Verif.Reports.RegulatorSolve
import Verif.Reports.ScProps
import Verif.Reports.Spec
import Verif.ResultSet.Lemmas
import Verif.ResultSet.Model
import Verif.ResultSet.Props
import Verif.ResultSet.Spec
import Verif.Sensor.Lemmas
import Verif.Sensor.Model
import Verif.Sensor.Propagation
import Verif.Sensor.Props
import Verif.Sensor.Spec
import Verif.Serial.Accepted
import Verif.Serial.Announce
import Verif.Serial.Elements
import Verif.Serial.History
import Verif.Serial.HistoryProps
import Verif.Serial.Json
import Verif.Serial.JsonLemmas
import Verif.Serial.JsonMessage
import Verif.Serial.Model
import Verif.Serial.Props
import Verif.Serial.Round
import Verif.Serial.Sizes
import Verif.Serial.Spec
import Verif.Serial.Tokens
import Verif.ShortCircuit.Cases
import Verif.ShortCircuit.Equations
import Verif.ShortCircuit.Laws
import Verif.ShortCircuit.Lemmas
import Verif.ShortCircuit.Model
import Verif.ShortCircuit.Props
import Verif.ShortCircuit.Results
import Verif.ShortCircuit.Spec
import Verif.StateEst.Consistent
import Verif.StateEst.Examples
import Verif.StateEst.Gain
import Verif.StateEst.Loop
import Verif.StateEst.Matrix
import Verif.StateEst.Model
import Verif.StateEst.Normal
import Verif.StateEst.Normalize
import Verif.StateEst.Optimal
import Verif.StateEst.Props
import Verif.StateEst.Refused
import Verif.StateEst.Sensors
import Verif.StateEst.SensorsExample
import Verif.StateEst.Spec
import Verif.Supernode.Lemmas
import Verif.Supernode.Model
import Verif.Supernode.Props
import Verif.Supernode.Spec
import Verif.TapOpt.Disconnected
import Verif.TapOpt.Errors
import Verif.TapOpt.Lemmas
import Verif.TapOpt.Model
import Verif.TapOpt.Props
import Verif.TapOpt.Runs
import Verif.TapOpt.Spec
import Verif.TapRank.Graph
import Verif.TapRank.Groups
import Verif.TapRank.Model
import Verif.TapRank.Props
import Verif.TapRank.Search
import Verif.TapRank.Spec
import Verif.TapVoltage.Examples
import Verif.TapVoltage.Lemmas
import Verif.TapVoltage.Model
import Verif.TapVoltage.Props
import Verif.TapVoltage.Spec
import Verif.Topology.Coupling
import Verif.Topology.Grid
import Verif.Topology.Islands
import Verif.Topology.Model
import Verif.Topology.Objects
import Verif.Topology.Props
import Verif.Topology.Reorder
import Verif.Topology.Search
import Verif.Topology.Sensors
import Verif.Topology.Spec
import Verif.Update.BatchProps
import Verif.Update.Classes
import Verif.Update.Component
import Verif.Update.Lemmas
import Verif.Update.Model
import Verif.Update.Props
import Verif.Update.Sequence
import Verif.Update.Spec
import Verif.YBus.Build
import Verif.YBus.Examples
import Verif.YBus.Flow
import Verif.YBus.Lemmas
import Verif.YBus.Model
import Verif.YBus.Props
import Verif.YBus.Sort
import Verif.YBus.Structure
import Verif.YBus.Values
