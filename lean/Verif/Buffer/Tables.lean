import Verif.Buffer.Model

/-!
# The records of all components

The members and conversions are those of `P/auxiliary/input.hpp`, `update.hpp` and `output.hpp`, the attributes those of the files with the same names in
`P/auxiliary/meta_gen`. Enumerations have the underlying type `int8_t` (`P/common/enum.hpp`). In every entry of the latter files the pointer to the
member, the member in `offsetof` and the name are the same. Templates have the type of `RealValue<sym>` as parameter `v`.
-/

namespace PGM.Buffer.Tables

open CType

/-- `BaseInput`, `P/auxiliary/input.hpp` lines 16-18; `P/auxiliary/meta_gen/input.hpp` lines 26-32. -/
def BaseInput : Struct where
  members := [
    ("id", .int32)]
  attributes := [
    "id"]

/-- `NodeInput`, `P/auxiliary/input.hpp` lines 20-27; `P/auxiliary/meta_gen/input.hpp` lines 35-42. -/
def NodeInput : Struct where
  members := [
    ("id", .int32), ("u_rated", .double)]
  attributes := [
    "id", "u_rated"]
  bases := [BaseInput.members]

/-- `BranchInput`, `P/auxiliary/input.hpp` lines 29-39; `P/auxiliary/meta_gen/input.hpp` lines 45-55. -/
def BranchInput : Struct where
  members := [
    ("id", .int32), ("from_node", .int32), ("to_node", .int32), ("from_status", .int8), ("to_status", .int8)]
  attributes := [
    "id", "from_node", "to_node", "from_status", "to_status"]
  bases := [BaseInput.members]

/-- `Branch3Input`, `P/auxiliary/input.hpp` lines 41-53; `P/auxiliary/meta_gen/input.hpp` lines 58-70. -/
def Branch3Input : Struct where
  members := [
    ("id", .int32), ("node_1", .int32), ("node_2", .int32), ("node_3", .int32), ("status_1", .int8), ("status_2", .int8), ("status_3", .int8)]
  attributes := [
    "id", "node_1", "node_2", "node_3", "status_1", "status_2", "status_3"]
  bases := [BaseInput.members]

/-- `SensorInput`, `P/auxiliary/input.hpp` lines 55-62; `P/auxiliary/meta_gen/input.hpp` lines 73-80. -/
def SensorInput : Struct where
  members := [
    ("id", .int32), ("measured_object", .int32)]
  attributes := [
    "id", "measured_object"]
  bases := [BaseInput.members]

/-- `ApplianceInput`, `P/auxiliary/input.hpp` lines 64-72; `P/auxiliary/meta_gen/input.hpp` lines 83-91. -/
def ApplianceInput : Struct where
  members := [
    ("id", .int32), ("node", .int32), ("status", .int8)]
  attributes := [
    "id", "node", "status"]
  bases := [BaseInput.members]

/-- `LineInput`, `P/auxiliary/input.hpp` lines 74-97; `P/auxiliary/meta_gen/input.hpp` lines 94-113. -/
def LineInput : Struct where
  members := [
    ("id", .int32), ("from_node", .int32), ("to_node", .int32), ("from_status", .int8), ("to_status", .int8), ("r1", .double), ("x1", .double),
    ("c1", .double), ("tan1", .double), ("r0", .double), ("x0", .double), ("c0", .double), ("tan0", .double), ("i_n", .double)]
  attributes := [
    "id", "from_node", "to_node", "from_status", "to_status", "r1", "x1", "c1", "tan1", "r0", "x0", "c0", "tan0", "i_n"]
  bases := [BaseInput.members, BranchInput.members]

/-- `AsymLineInput`, `P/auxiliary/input.hpp` lines 99-142; `P/auxiliary/meta_gen/input.hpp` lines 116-155. -/
def AsymLineInput : Struct where
  members := [
    ("id", .int32), ("from_node", .int32), ("to_node", .int32), ("from_status", .int8), ("to_status", .int8), ("r_aa", .double), ("r_ba", .double),
    ("r_bb", .double), ("r_ca", .double), ("r_cb", .double), ("r_cc", .double), ("r_na", .double), ("r_nb", .double), ("r_nc", .double),
    ("r_nn", .double), ("x_aa", .double), ("x_ba", .double), ("x_bb", .double), ("x_ca", .double), ("x_cb", .double), ("x_cc", .double),
    ("x_na", .double), ("x_nb", .double), ("x_nc", .double), ("x_nn", .double), ("c_aa", .double), ("c_ba", .double), ("c_bb", .double),
    ("c_ca", .double), ("c_cb", .double), ("c_cc", .double), ("c0", .double), ("c1", .double), ("i_n", .double)]
  attributes := [
    "id", "from_node", "to_node", "from_status", "to_status", "r_aa", "r_ba", "r_bb", "r_ca", "r_cb", "r_cc", "r_na", "r_nb", "r_nc", "r_nn", "x_aa",
    "x_ba", "x_bb", "x_ca", "x_cb", "x_cc", "x_na", "x_nb", "x_nc", "x_nn", "c_aa", "c_ba", "c_bb", "c_ca", "c_cb", "c_cc", "c0", "c1", "i_n"]
  bases := [BaseInput.members, BranchInput.members]

/-- `GenericBranchInput`, `P/auxiliary/input.hpp` lines 144-165; `P/auxiliary/meta_gen/input.hpp` lines 158-175. -/
def GenericBranchInput : Struct where
  members := [
    ("id", .int32), ("from_node", .int32), ("to_node", .int32), ("from_status", .int8), ("to_status", .int8), ("r1", .double), ("x1", .double),
    ("g1", .double), ("b1", .double), ("k", .double), ("theta", .double), ("sn", .double)]
  attributes := [
    "id", "from_node", "to_node", "from_status", "to_status", "r1", "x1", "g1", "b1", "k", "theta", "sn"]
  bases := [BaseInput.members, BranchInput.members]

/-- `LinkInput`, `P/auxiliary/input.hpp` lines 167-181; `P/auxiliary/meta_gen/input.hpp` lines 178-188. -/
def LinkInput : Struct where
  members := [
    ("id", .int32), ("from_node", .int32), ("to_node", .int32), ("from_status", .int8), ("to_status", .int8)]
  attributes := [
    "id", "from_node", "to_node", "from_status", "to_status"]
  bases := [BaseInput.members, BranchInput.members]

/-- `TransformerInput`, `P/auxiliary/input.hpp` lines 183-223; `P/auxiliary/meta_gen/input.hpp` lines 191-227. -/
def TransformerInput : Struct where
  members := [
    ("id", .int32), ("from_node", .int32), ("to_node", .int32), ("from_status", .int8), ("to_status", .int8), ("u1", .double), ("u2", .double),
    ("sn", .double), ("uk", .double), ("pk", .double), ("i0", .double), ("p0", .double), ("i0_zero_sequence", .double),
    ("p0_zero_sequence", .double), ("winding_from", .int8), ("winding_to", .int8), ("clock", .int8), ("tap_side", .int8), ("tap_pos", .int8),
    ("tap_min", .int8), ("tap_max", .int8), ("tap_nom", .int8), ("tap_size", .double), ("uk_min", .double), ("uk_max", .double), ("pk_min", .double),
    ("pk_max", .double), ("r_grounding_from", .double), ("x_grounding_from", .double), ("r_grounding_to", .double), ("x_grounding_to", .double)]
  attributes := [
    "id", "from_node", "to_node", "from_status", "to_status", "u1", "u2", "sn", "uk", "pk", "i0", "p0", "i0_zero_sequence", "p0_zero_sequence",
    "winding_from", "winding_to", "clock", "tap_side", "tap_pos", "tap_min", "tap_max", "tap_nom", "tap_size", "uk_min", "uk_max", "pk_min",
    "pk_max", "r_grounding_from", "x_grounding_from", "r_grounding_to", "x_grounding_to"]
  bases := [BaseInput.members, BranchInput.members]

/-- `ThreeWindingTransformerInput`, `P/auxiliary/input.hpp` lines 225-284; `P/auxiliary/meta_gen/input.hpp` lines 230-285. -/
def ThreeWindingTransformerInput : Struct where
  members := [
    ("id", .int32), ("node_1", .int32), ("node_2", .int32), ("node_3", .int32), ("status_1", .int8), ("status_2", .int8), ("status_3", .int8),
    ("u1", .double), ("u2", .double), ("u3", .double), ("sn_1", .double), ("sn_2", .double), ("sn_3", .double), ("uk_12", .double),
    ("uk_13", .double), ("uk_23", .double), ("pk_12", .double), ("pk_13", .double), ("pk_23", .double), ("i0", .double), ("p0", .double),
    ("winding_1", .int8), ("winding_2", .int8), ("winding_3", .int8), ("clock_12", .int8), ("clock_13", .int8), ("tap_side", .int8),
    ("tap_pos", .int8), ("tap_min", .int8), ("tap_max", .int8), ("tap_nom", .int8), ("tap_size", .double), ("uk_12_min", .double),
    ("uk_12_max", .double), ("uk_13_min", .double), ("uk_13_max", .double), ("uk_23_min", .double), ("uk_23_max", .double), ("pk_12_min", .double),
    ("pk_12_max", .double), ("pk_13_min", .double), ("pk_13_max", .double), ("pk_23_min", .double), ("pk_23_max", .double),
    ("r_grounding_1", .double), ("x_grounding_1", .double), ("r_grounding_2", .double), ("x_grounding_2", .double), ("r_grounding_3", .double),
    ("x_grounding_3", .double)]
  attributes := [
    "id", "node_1", "node_2", "node_3", "status_1", "status_2", "status_3", "u1", "u2", "u3", "sn_1", "sn_2", "sn_3", "uk_12", "uk_13", "uk_23",
    "pk_12", "pk_13", "pk_23", "i0", "p0", "winding_1", "winding_2", "winding_3", "clock_12", "clock_13", "tap_side", "tap_pos", "tap_min",
    "tap_max", "tap_nom", "tap_size", "uk_12_min", "uk_12_max", "uk_13_min", "uk_13_max", "uk_23_min", "uk_23_max", "pk_12_min", "pk_12_max",
    "pk_13_min", "pk_13_max", "pk_23_min", "pk_23_max", "r_grounding_1", "x_grounding_1", "r_grounding_2", "x_grounding_2", "r_grounding_3",
    "x_grounding_3"]
  bases := [BaseInput.members, Branch3Input.members]

/-- `GenericLoadGenInput`, `P/auxiliary/input.hpp` lines 286-299; `P/auxiliary/meta_gen/input.hpp` lines 288-297. -/
def GenericLoadGenInput : Struct where
  members := [
    ("id", .int32), ("node", .int32), ("status", .int8), ("type", .int8)]
  attributes := [
    "id", "node", "status", "type"]
  bases := [BaseInput.members, ApplianceInput.members]

/-- `LoadGenInput`, `P/auxiliary/input.hpp` lines 302-323; `P/auxiliary/meta_gen/input.hpp` lines 300-313. -/
def LoadGenInput (v : CType) : Struct where
  members := [
    ("id", .int32), ("node", .int32), ("status", .int8), ("type", .int8), ("p_specified", v), ("q_specified", v)]
  attributes := [
    "id", "node", "status", "type", "p_specified", "q_specified"]
  bases := [BaseInput.members, ApplianceInput.members, GenericLoadGenInput.members]

/-- `ShuntInput`, `P/auxiliary/input.hpp` lines 328-344; `P/auxiliary/meta_gen/input.hpp` lines 316-328. -/
def ShuntInput : Struct where
  members := [
    ("id", .int32), ("node", .int32), ("status", .int8), ("g1", .double), ("b1", .double), ("g0", .double), ("b0", .double)]
  attributes := [
    "id", "node", "status", "g1", "b1", "g0", "b0"]
  bases := [BaseInput.members, ApplianceInput.members]

/-- `SourceInput`, `P/auxiliary/input.hpp` lines 346-363; `P/auxiliary/meta_gen/input.hpp` lines 331-344. -/
def SourceInput : Struct where
  members := [
    ("id", .int32), ("node", .int32), ("status", .int8), ("u_ref", .double), ("u_ref_angle", .double), ("sk", .double), ("rx_ratio", .double),
    ("z01_ratio", .double)]
  attributes := [
    "id", "node", "status", "u_ref", "u_ref_angle", "sk", "rx_ratio", "z01_ratio"]
  bases := [BaseInput.members, ApplianceInput.members]

/-- `GenericVoltageSensorInput`, `P/auxiliary/input.hpp` lines 365-377; `P/auxiliary/meta_gen/input.hpp` lines 347-355. -/
def GenericVoltageSensorInput : Struct where
  members := [
    ("id", .int32), ("measured_object", .int32), ("u_sigma", .double)]
  attributes := [
    "id", "measured_object", "u_sigma"]
  bases := [BaseInput.members, SensorInput.members]

/-- `VoltageSensorInput`, `P/auxiliary/input.hpp` lines 380-400; `P/auxiliary/meta_gen/input.hpp` lines 358-370. -/
def VoltageSensorInput (v : CType) : Struct where
  members := [
    ("id", .int32), ("measured_object", .int32), ("u_sigma", .double), ("u_measured", v), ("u_angle_measured", v)]
  attributes := [
    "id", "measured_object", "u_sigma", "u_measured", "u_angle_measured"]
  bases := [BaseInput.members, SensorInput.members, GenericVoltageSensorInput.members]

/-- `GenericPowerSensorInput`, `P/auxiliary/input.hpp` lines 405-418; `P/auxiliary/meta_gen/input.hpp` lines 373-382. -/
def GenericPowerSensorInput : Struct where
  members := [
    ("id", .int32), ("measured_object", .int32), ("measured_terminal_type", .int8), ("power_sigma", .double)]
  attributes := [
    "id", "measured_object", "measured_terminal_type", "power_sigma"]
  bases := [BaseInput.members, SensorInput.members]

/-- `PowerSensorInput`, `P/auxiliary/input.hpp` lines 421-444; `P/auxiliary/meta_gen/input.hpp` lines 385-400. -/
def PowerSensorInput (v : CType) : Struct where
  members := [
    ("id", .int32), ("measured_object", .int32), ("measured_terminal_type", .int8), ("power_sigma", .double), ("p_measured", v), ("q_measured", v),
    ("p_sigma", v), ("q_sigma", v)]
  attributes := [
    "id", "measured_object", "measured_terminal_type", "power_sigma", "p_measured", "q_measured", "p_sigma", "q_sigma"]
  bases := [BaseInput.members, SensorInput.members, GenericPowerSensorInput.members]

/-- `FaultInput`, `P/auxiliary/input.hpp` lines 449-461; `P/auxiliary/meta_gen/input.hpp` lines 403-415. -/
def FaultInput : Struct where
  members := [
    ("id", .int32), ("status", .int8), ("fault_type", .int8), ("fault_phase", .int8), ("fault_object", .int32), ("r_f", .double), ("x_f", .double)]
  attributes := [
    "id", "status", "fault_type", "fault_phase", "fault_object", "r_f", "x_f"]
  bases := [BaseInput.members]

/-- `RegulatorInput`, `P/auxiliary/input.hpp` lines 463-471; `P/auxiliary/meta_gen/input.hpp` lines 418-426. -/
def RegulatorInput : Struct where
  members := [
    ("id", .int32), ("regulated_object", .int32), ("status", .int8)]
  attributes := [
    "id", "regulated_object", "status"]
  bases := [BaseInput.members]

/-- `TransformerTapRegulatorInput`, `P/auxiliary/input.hpp` lines 473-490; `P/auxiliary/meta_gen/input.hpp` lines 429-442. -/
def TransformerTapRegulatorInput : Struct where
  members := [
    ("id", .int32), ("regulated_object", .int32), ("status", .int8), ("control_side", .int8), ("u_set", .double), ("u_band", .double),
    ("line_drop_compensation_r", .double), ("line_drop_compensation_x", .double)]
  attributes := [
    "id", "regulated_object", "status", "control_side", "u_set", "u_band", "line_drop_compensation_r", "line_drop_compensation_x"]
  bases := [BaseInput.members, RegulatorInput.members]

/-- `VoltageRegulatorInput`, `P/auxiliary/input.hpp` lines 492-507; `P/auxiliary/meta_gen/input.hpp` lines 445-456. -/
def VoltageRegulatorInput : Struct where
  members := [
    ("id", .int32), ("regulated_object", .int32), ("status", .int8), ("u_ref", .double), ("q_min", .double), ("q_max", .double)]
  attributes := [
    "id", "regulated_object", "status", "u_ref", "q_min", "q_max"]
  bases := [BaseInput.members, RegulatorInput.members]

/-- `GenericCurrentSensorInput`, `P/auxiliary/input.hpp` lines 509-524; `P/auxiliary/meta_gen/input.hpp` lines 459-470. -/
def GenericCurrentSensorInput : Struct where
  members := [
    ("id", .int32), ("measured_object", .int32), ("measured_terminal_type", .int8), ("angle_measurement_type", .int8), ("i_sigma", .double),
    ("i_angle_sigma", .double)]
  attributes := [
    "id", "measured_object", "measured_terminal_type", "angle_measurement_type", "i_sigma", "i_angle_sigma"]
  bases := [BaseInput.members, SensorInput.members]

/-- `CurrentSensorInput`, `P/auxiliary/input.hpp` lines 527-550; `P/auxiliary/meta_gen/input.hpp` lines 473-488. -/
def CurrentSensorInput (v : CType) : Struct where
  members := [
    ("id", .int32), ("measured_object", .int32), ("measured_terminal_type", .int8), ("angle_measurement_type", .int8), ("i_sigma", .double),
    ("i_angle_sigma", .double), ("i_measured", v), ("i_angle_measured", v)]
  attributes := [
    "id", "measured_object", "measured_terminal_type", "angle_measurement_type", "i_sigma", "i_angle_sigma", "i_measured", "i_angle_measured"]
  bases := [BaseInput.members, SensorInput.members, GenericCurrentSensorInput.members]

/-- `BaseUpdate`, `P/auxiliary/update.hpp` lines 16-18; `P/auxiliary/meta_gen/update.hpp` lines 26-32. -/
def BaseUpdate : Struct where
  members := [
    ("id", .int32)]
  attributes := [
    "id"]

/-- `BranchUpdate`, `P/auxiliary/update.hpp` lines 20-28; `P/auxiliary/meta_gen/update.hpp` lines 35-43. -/
def BranchUpdate : Struct where
  members := [
    ("id", .int32), ("from_status", .int8), ("to_status", .int8)]
  attributes := [
    "id", "from_status", "to_status"]
  bases := [BaseUpdate.members]

/-- `Branch3Update`, `P/auxiliary/update.hpp` lines 30-39; `P/auxiliary/meta_gen/update.hpp` lines 46-55. -/
def Branch3Update : Struct where
  members := [
    ("id", .int32), ("status_1", .int8), ("status_2", .int8), ("status_3", .int8)]
  attributes := [
    "id", "status_1", "status_2", "status_3"]
  bases := [BaseUpdate.members]

/-- `ApplianceUpdate`, `P/auxiliary/update.hpp` lines 41-48; `P/auxiliary/meta_gen/update.hpp` lines 58-65. -/
def ApplianceUpdate : Struct where
  members := [
    ("id", .int32), ("status", .int8)]
  attributes := [
    "id", "status"]
  bases := [BaseUpdate.members]

/-- `TransformerUpdate`, `P/auxiliary/update.hpp` lines 50-63; `P/auxiliary/meta_gen/update.hpp` lines 68-77. -/
def TransformerUpdate : Struct where
  members := [
    ("id", .int32), ("from_status", .int8), ("to_status", .int8), ("tap_pos", .int8)]
  attributes := [
    "id", "from_status", "to_status", "tap_pos"]
  bases := [BaseUpdate.members, BranchUpdate.members]

/-- `ThreeWindingTransformerUpdate`, `P/auxiliary/update.hpp` lines 65-79; `P/auxiliary/meta_gen/update.hpp` lines 80-90. -/
def ThreeWindingTransformerUpdate : Struct where
  members := [
    ("id", .int32), ("status_1", .int8), ("status_2", .int8), ("status_3", .int8), ("tap_pos", .int8)]
  attributes := [
    "id", "status_1", "status_2", "status_3", "tap_pos"]
  bases := [BaseUpdate.members, Branch3Update.members]

/-- `LoadGenUpdate`, `P/auxiliary/update.hpp` lines 82-97; `P/auxiliary/meta_gen/update.hpp` lines 93-104. -/
def LoadGenUpdate (v : CType) : Struct where
  members := [
    ("id", .int32), ("status", .int8), ("p_specified", v), ("q_specified", v)]
  attributes := [
    "id", "status", "p_specified", "q_specified"]
  bases := [BaseUpdate.members, ApplianceUpdate.members]

/-- `SourceUpdate`, `P/auxiliary/update.hpp` lines 102-118; `P/auxiliary/meta_gen/update.hpp` lines 107-119. -/
def SourceUpdate : Struct where
  members := [
    ("id", .int32), ("status", .int8), ("u_ref", .double), ("u_ref_angle", .double), ("sk", .double), ("rx_ratio", .double), ("z01_ratio", .double)]
  attributes := [
    "id", "status", "u_ref", "u_ref_angle", "sk", "rx_ratio", "z01_ratio"]
  bases := [BaseUpdate.members, ApplianceUpdate.members]

/-- `ShuntUpdate`, `P/auxiliary/update.hpp` lines 120-135; `P/auxiliary/meta_gen/update.hpp` lines 122-133. -/
def ShuntUpdate : Struct where
  members := [
    ("id", .int32), ("status", .int8), ("g1", .double), ("b1", .double), ("g0", .double), ("b0", .double)]
  attributes := [
    "id", "status", "g1", "b1", "g0", "b0"]
  bases := [BaseUpdate.members, ApplianceUpdate.members]

/-- `VoltageSensorUpdate`, `P/auxiliary/update.hpp` lines 138-149; `P/auxiliary/meta_gen/update.hpp` lines 136-147. -/
def VoltageSensorUpdate (v : CType) : Struct where
  members := [
    ("id", .int32), ("u_sigma", .double), ("u_measured", v), ("u_angle_measured", v)]
  attributes := [
    "id", "u_sigma", "u_measured", "u_angle_measured"]
  bases := [BaseUpdate.members]

/-- `PowerSensorUpdate`, `P/auxiliary/update.hpp` lines 155-168; `P/auxiliary/meta_gen/update.hpp` lines 150-163. -/
def PowerSensorUpdate (v : CType) : Struct where
  members := [
    ("id", .int32), ("power_sigma", .double), ("p_measured", v), ("q_measured", v), ("p_sigma", v), ("q_sigma", v)]
  attributes := [
    "id", "power_sigma", "p_measured", "q_measured", "p_sigma", "q_sigma"]
  bases := [BaseUpdate.members]

/-- `FaultUpdate`, `P/auxiliary/update.hpp` lines 173-185; `P/auxiliary/meta_gen/update.hpp` lines 166-178. -/
def FaultUpdate : Struct where
  members := [
    ("id", .int32), ("status", .int8), ("fault_type", .int8), ("fault_phase", .int8), ("fault_object", .int32), ("r_f", .double), ("x_f", .double)]
  attributes := [
    "id", "status", "fault_type", "fault_phase", "fault_object", "r_f", "x_f"]
  bases := [BaseUpdate.members]

/-- `RegulatorUpdate`, `P/auxiliary/update.hpp` lines 187-194; `P/auxiliary/meta_gen/update.hpp` lines 181-188. -/
def RegulatorUpdate : Struct where
  members := [
    ("id", .int32), ("status", .int8)]
  attributes := [
    "id", "status"]
  bases := [BaseUpdate.members]

/-- `TransformerTapRegulatorUpdate`, `P/auxiliary/update.hpp` lines 196-211; `P/auxiliary/meta_gen/update.hpp` lines 191-202. -/
def TransformerTapRegulatorUpdate : Struct where
  members := [
    ("id", .int32), ("status", .int8), ("u_set", .double), ("u_band", .double), ("line_drop_compensation_r", .double),
    ("line_drop_compensation_x", .double)]
  attributes := [
    "id", "status", "u_set", "u_band", "line_drop_compensation_r", "line_drop_compensation_x"]
  bases := [BaseUpdate.members, RegulatorUpdate.members]

/-- `VoltageRegulatorUpdate`, `P/auxiliary/update.hpp` lines 213-227; `P/auxiliary/meta_gen/update.hpp` lines 205-215. -/
def VoltageRegulatorUpdate : Struct where
  members := [
    ("id", .int32), ("status", .int8), ("u_ref", .double), ("q_min", .double), ("q_max", .double)]
  attributes := [
    "id", "status", "u_ref", "q_min", "q_max"]
  bases := [BaseUpdate.members, RegulatorUpdate.members]

/-- `CurrentSensorUpdate`, `P/auxiliary/update.hpp` lines 230-242; `P/auxiliary/meta_gen/update.hpp` lines 218-230. -/
def CurrentSensorUpdate (v : CType) : Struct where
  members := [
    ("id", .int32), ("i_sigma", .double), ("i_angle_sigma", .double), ("i_measured", v), ("i_angle_measured", v)]
  attributes := [
    "id", "i_sigma", "i_angle_sigma", "i_measured", "i_angle_measured"]
  bases := [BaseUpdate.members]

/-- `BaseOutput`, `P/auxiliary/output.hpp` lines 15-18; `P/auxiliary/meta_gen/output.hpp` lines 26-33. -/
def BaseOutput : Struct where
  members := [
    ("id", .int32), ("energized", .int8)]
  attributes := [
    "id", "energized"]

/-- `NodeOutput`, `P/auxiliary/output.hpp` lines 21-35; `P/auxiliary/meta_gen/output.hpp` lines 36-50. -/
def NodeOutput (v : CType) : Struct where
  members := [
    ("id", .int32), ("energized", .int8), ("u_pu", v), ("u", v), ("u_angle", v), ("p", v), ("q", v)]
  attributes := [
    "id", "energized", "u_pu", "u", "u_angle", "p", "q"]
  bases := [BaseOutput.members]

/-- `BranchOutput`, `P/auxiliary/output.hpp` lines 41-59; `P/auxiliary/meta_gen/output.hpp` lines 53-71. -/
def BranchOutput (v : CType) : Struct where
  members := [
    ("id", .int32), ("energized", .int8), ("loading", .double), ("p_from", v), ("q_from", v), ("i_from", v), ("s_from", v), ("p_to", v), ("q_to", v),
    ("i_to", v), ("s_to", v)]
  attributes := [
    "id", "energized", "loading", "p_from", "q_from", "i_from", "s_from", "p_to", "q_to", "i_to", "s_to"]
  bases := [BaseOutput.members]

/-- `Branch3Output`, `P/auxiliary/output.hpp` lines 65-90; `P/auxiliary/meta_gen/output.hpp` lines 74-99. -/
def Branch3Output (v : CType) : Struct where
  members := [
    ("id", .int32), ("energized", .int8), ("loading_1", .double), ("loading_2", .double), ("loading_3", .double), ("loading", .double), ("p_1", v),
    ("q_1", v), ("i_1", v), ("s_1", v), ("p_2", v), ("q_2", v), ("i_2", v), ("s_2", v), ("p_3", v), ("q_3", v), ("i_3", v), ("s_3", v)]
  attributes := [
    "id", "energized", "loading_1", "loading_2", "loading_3", "loading", "p_1", "q_1", "i_1", "s_1", "p_2", "q_2", "i_2", "s_2", "p_3", "q_3", "i_3",
    "s_3"]
  bases := [BaseOutput.members]

/-- `ApplianceOutput`, `P/auxiliary/output.hpp` lines 96-110; `P/auxiliary/meta_gen/output.hpp` lines 102-116. -/
def ApplianceOutput (v : CType) : Struct where
  members := [
    ("id", .int32), ("energized", .int8), ("p", v), ("q", v), ("i", v), ("s", v), ("pf", v)]
  attributes := [
    "id", "energized", "p", "q", "i", "s", "pf"]
  bases := [BaseOutput.members]

/-- `VoltageSensorOutput`, `P/auxiliary/output.hpp` lines 116-127; `P/auxiliary/meta_gen/output.hpp` lines 119-130. -/
def VoltageSensorOutput (v : CType) : Struct where
  members := [
    ("id", .int32), ("energized", .int8), ("u_residual", v), ("u_angle_residual", v)]
  attributes := [
    "id", "energized", "u_residual", "u_angle_residual"]
  bases := [BaseOutput.members]

/-- `PowerSensorOutput`, `P/auxiliary/output.hpp` lines 133-144; `P/auxiliary/meta_gen/output.hpp` lines 133-144. -/
def PowerSensorOutput (v : CType) : Struct where
  members := [
    ("id", .int32), ("energized", .int8), ("p_residual", v), ("q_residual", v)]
  attributes := [
    "id", "energized", "p_residual", "q_residual"]
  bases := [BaseOutput.members]

/-- `FaultOutput`, `P/auxiliary/output.hpp` lines 149-156; `P/auxiliary/meta_gen/output.hpp` lines 147-154. -/
def FaultOutput : Struct where
  members := [
    ("id", .int32), ("energized", .int8)]
  attributes := [
    "id", "energized"]
  bases := [BaseOutput.members]

/-- `FaultShortCircuitOutput`, `P/auxiliary/output.hpp` lines 158-167; `P/auxiliary/meta_gen/output.hpp` lines 157-166. -/
def FaultShortCircuitOutput : Struct where
  members := [
    ("id", .int32), ("energized", .int8), ("i_f", .double3), ("i_f_angle", .double3)]
  attributes := [
    "id", "energized", "i_f", "i_f_angle"]
  bases := [BaseOutput.members]

/-- `NodeShortCircuitOutput`, `P/auxiliary/output.hpp` lines 169-179; `P/auxiliary/meta_gen/output.hpp` lines 169-179. -/
def NodeShortCircuitOutput : Struct where
  members := [
    ("id", .int32), ("energized", .int8), ("u_pu", .double3), ("u", .double3), ("u_angle", .double3)]
  attributes := [
    "id", "energized", "u_pu", "u", "u_angle"]
  bases := [BaseOutput.members]

/-- `BranchShortCircuitOutput`, `P/auxiliary/output.hpp` lines 181-192; `P/auxiliary/meta_gen/output.hpp` lines 182-193. -/
def BranchShortCircuitOutput : Struct where
  members := [
    ("id", .int32), ("energized", .int8), ("i_from", .double3), ("i_from_angle", .double3), ("i_to", .double3), ("i_to_angle", .double3)]
  attributes := [
    "id", "energized", "i_from", "i_from_angle", "i_to", "i_to_angle"]
  bases := [BaseOutput.members]

/-- `Branch3ShortCircuitOutput`, `P/auxiliary/output.hpp` lines 194-207; `P/auxiliary/meta_gen/output.hpp` lines 196-209. -/
def Branch3ShortCircuitOutput : Struct where
  members := [
    ("id", .int32), ("energized", .int8), ("i_1", .double3), ("i_1_angle", .double3), ("i_2", .double3), ("i_2_angle", .double3), ("i_3", .double3),
    ("i_3_angle", .double3)]
  attributes := [
    "id", "energized", "i_1", "i_1_angle", "i_2", "i_2_angle", "i_3", "i_3_angle"]
  bases := [BaseOutput.members]

/-- `ApplianceShortCircuitOutput`, `P/auxiliary/output.hpp` lines 209-218; `P/auxiliary/meta_gen/output.hpp` lines 212-221. -/
def ApplianceShortCircuitOutput : Struct where
  members := [
    ("id", .int32), ("energized", .int8), ("i", .double3), ("i_angle", .double3)]
  attributes := [
    "id", "energized", "i", "i_angle"]
  bases := [BaseOutput.members]

/-- `SensorShortCircuitOutput`, `P/auxiliary/output.hpp` lines 220-227; `P/auxiliary/meta_gen/output.hpp` lines 224-231. -/
def SensorShortCircuitOutput : Struct where
  members := [
    ("id", .int32), ("energized", .int8)]
  attributes := [
    "id", "energized"]
  bases := [BaseOutput.members]

/-- `TransformerTapRegulatorOutput`, `P/auxiliary/output.hpp` lines 229-237; `P/auxiliary/meta_gen/output.hpp` lines 234-242. -/
def TransformerTapRegulatorOutput : Struct where
  members := [
    ("id", .int32), ("energized", .int8), ("tap_pos", .int8)]
  attributes := [
    "id", "energized", "tap_pos"]
  bases := [BaseOutput.members]

/-- `VoltageRegulatorOutput`, `P/auxiliary/output.hpp` lines 239-247; `P/auxiliary/meta_gen/output.hpp` lines 245-253. -/
def VoltageRegulatorOutput : Struct where
  members := [
    ("id", .int32), ("energized", .int8), ("limit_violated", .int8)]
  attributes := [
    "id", "energized", "limit_violated"]
  bases := [BaseOutput.members]

/-- `RegulatorShortCircuitOutput`, `P/auxiliary/output.hpp` lines 249-256; `P/auxiliary/meta_gen/output.hpp` lines 256-263. -/
def RegulatorShortCircuitOutput : Struct where
  members := [
    ("id", .int32), ("energized", .int8)]
  attributes := [
    "id", "energized"]
  bases := [BaseOutput.members]

/-- `CurrentSensorOutput`, `P/auxiliary/output.hpp` lines 259-270; `P/auxiliary/meta_gen/output.hpp` lines 266-277. -/
def CurrentSensorOutput (v : CType) : Struct where
  members := [
    ("id", .int32), ("energized", .int8), ("i_residual", v), ("i_angle_residual", v)]
  attributes := [
    "id", "energized", "i_residual", "i_angle_residual"]
  bases := [BaseOutput.members]

/-- One component of `AllComponents`, `P/all_components.hpp` lines 37-40, with its `name`, `InputType`, `UpdateType`, `OutputType` and `ShortCircuitOutputType`
in `P/component/*.hpp`, which may be those of a base class. The output depends on the symmetry. -/
structure Row where
  name : String
  input : Struct
  update : Struct
  output : CType → Struct
  shortCircuit : Struct

/-- `AllComponents`, `P/all_components.hpp` lines 37-40. -/
def components : List Row := [
  ⟨"node", NodeInput, BaseUpdate, NodeOutput, NodeShortCircuitOutput⟩,
  ⟨"line", LineInput, BranchUpdate, BranchOutput, BranchShortCircuitOutput⟩,
  ⟨"asym_line", AsymLineInput, BranchUpdate, BranchOutput, BranchShortCircuitOutput⟩,
  ⟨"link", LinkInput, BranchUpdate, BranchOutput, BranchShortCircuitOutput⟩,
  ⟨"generic_branch", GenericBranchInput, BranchUpdate, BranchOutput, BranchShortCircuitOutput⟩,
  ⟨"transformer", TransformerInput, TransformerUpdate, BranchOutput, BranchShortCircuitOutput⟩,
  ⟨"three_winding_transformer", ThreeWindingTransformerInput, ThreeWindingTransformerUpdate, Branch3Output, Branch3ShortCircuitOutput⟩,
  ⟨"shunt", ShuntInput, ShuntUpdate, ApplianceOutput, ApplianceShortCircuitOutput⟩,
  ⟨"source", SourceInput, SourceUpdate, ApplianceOutput, ApplianceShortCircuitOutput⟩,
  ⟨"sym_gen", LoadGenInput .double, LoadGenUpdate .double, ApplianceOutput, ApplianceShortCircuitOutput⟩,
  ⟨"asym_gen", LoadGenInput .double3, LoadGenUpdate .double3, ApplianceOutput, ApplianceShortCircuitOutput⟩,
  ⟨"sym_load", LoadGenInput .double, LoadGenUpdate .double, ApplianceOutput, ApplianceShortCircuitOutput⟩,
  ⟨"asym_load", LoadGenInput .double3, LoadGenUpdate .double3, ApplianceOutput, ApplianceShortCircuitOutput⟩,
  ⟨"sym_power_sensor", PowerSensorInput .double, PowerSensorUpdate .double, PowerSensorOutput, SensorShortCircuitOutput⟩,
  ⟨"asym_power_sensor", PowerSensorInput .double3, PowerSensorUpdate .double3, PowerSensorOutput, SensorShortCircuitOutput⟩,
  ⟨"sym_voltage_sensor", VoltageSensorInput .double, VoltageSensorUpdate .double, VoltageSensorOutput, SensorShortCircuitOutput⟩,
  ⟨"asym_voltage_sensor", VoltageSensorInput .double3, VoltageSensorUpdate .double3, VoltageSensorOutput, SensorShortCircuitOutput⟩,
  ⟨"sym_current_sensor", CurrentSensorInput .double, CurrentSensorUpdate .double, CurrentSensorOutput, SensorShortCircuitOutput⟩,
  ⟨"asym_current_sensor", CurrentSensorInput .double3, CurrentSensorUpdate .double3, CurrentSensorOutput, SensorShortCircuitOutput⟩,
  ⟨"fault", FaultInput, FaultUpdate, fun _ => FaultOutput, FaultShortCircuitOutput⟩,
  ⟨"transformer_tap_regulator", TransformerTapRegulatorInput, TransformerTapRegulatorUpdate, fun _ => TransformerTapRegulatorOutput, RegulatorShortCircuitOutput⟩,
  ⟨"voltage_regulator", VoltageRegulatorInput, VoltageRegulatorUpdate, fun _ => VoltageRegulatorOutput, RegulatorShortCircuitOutput⟩]

/-- `input_getter_s` and its like, `P/auxiliary/meta_data.hpp` lines 204-223, and the order of `P/auxiliary/meta_data_gen.hpp` lines 23-27. -/
def getters : List (String × (Row → Struct)) :=
  [("input", Row.input), ("update", Row.update), ("sym_output", fun r => r.output .double), ("asym_output", fun r => r.output .double3),
    ("sc_output", Row.shortCircuit)]

/-- `meta_data`, `P/auxiliary/meta_data_gen.hpp` lines 23-27, with `get_meta_dataset`, `P/auxiliary/meta_gen/gen_getters.hpp` lines 96-106. -/
def metaData : List Dataset := getters.map fun g => ⟨g.1, components.map fun r => metaComponent r.name (g.2 r)⟩

/-- All records in use. -/
def structs : List Struct := getters.flatMap fun g => components.map g.2

end PGM.Buffer.Tables
