import Mathlib.Order.Basic
import Mathlib.Data.Prod.Lex
import Mathlib.Data.Rat.Cast.Order
import Verif.LuaDictionary

/-!
# Configuration

Model of the functions that make the option messages from the Lua configuration (`Create…Options`, together with the
`Populate…` helpers), of the messages as declared in the .proto files, and of the configuration files that come with the
library (configuration_files/). Dictionaries are those of `Verif.LuaDictionary`.

A string is a name from the enumeration `Name`, or a name with a number at its end, or something else, which is what the model
needs instead of the characters. The values in the messages are the Lua numbers themselves: that a `float` or an `int32` may not
hold a number is left out. What `lua_tonumber` makes of a string and `lua_tostring` of a number are parameters.
-/

namespace Verif.Config

open Verif.Lua

/-- The names that occur as keys, fields or values of enums. -/
inductive Name where
  | max_length | min_num_points | max_range | use_nonmonotonic_steps | max_num_iterations | num_threads
    | pose_queue_duration | imu_gravity_time_constant | gravity_constant | pose_translation_weight
    | pose_rotation_weight | imu_acceleration_weight | imu_rotation_weight | odometry_rotation_weight
    | odometry_translation_weight | solver_options | use_imu_based | constant_velocity | imu_based
    | max_time_seconds | max_distance_meters | max_angle_radians | linear_search_window
    | angular_search_window | translation_delta_cost_weight | rotation_delta_cost_weight
    | branch_and_bound_depth | full_resolution_depth | min_rotational_score | min_low_resolution_score
    | linear_xy_search_window | linear_z_search_window | occupied_space_weight | translation_weight
    | rotation_weight | ceres_solver_options | weight | huber_scale | intensity_threshold
    | intensity_cost_function_options | only_optimize_yaw | num_normal_samples | sample_radius
    | truncation_distance | maximum_weight | update_free_space | normal_estimation_options
    | project_sdf_distance_to_scan_normal | update_weight_range_exponent
    | update_weight_angle_scan_normal_to_ray_kernel_bandwidth
    | update_weight_distance_cell_to_hit_kernel_bandwidth | hit_probability | miss_probability
    | insert_free_space | range_data_inserter_type | probability_grid_range_data_inserter
    | probability_grid_range_data_inserter_options_2d | tsdf_range_data_inserter
    | tsdf_range_data_inserter_options_2d | num_free_space_voxels | grid_type | resolution | num_range_data
    | grid_options_2d | range_data_inserter | range_data_inserter_options | high_resolution
    | high_resolution_max_range | low_resolution | min_range | min_z | max_z | missing_data_ray_length
    | num_accumulated_range_data | voxel_filter_size | use_online_correlative_scan_matching
    | adaptive_voxel_filter | adaptive_voxel_filter_options | loop_closure_adaptive_voxel_filter
    | loop_closure_adaptive_voxel_filter_options | real_time_correlative_scan_matcher
    | real_time_correlative_scan_matcher_options | ceres_scan_matcher | ceres_scan_matcher_options
    | motion_filter | motion_filter_options | pose_extrapolator | pose_extrapolator_options | submaps
    | submaps_options | use_imu_data | high_resolution_adaptive_voxel_filter
    | high_resolution_adaptive_voxel_filter_options | low_resolution_adaptive_voxel_filter
    | low_resolution_adaptive_voxel_filter_options | rotational_histogram_size | use_intensities
    | max_submaps_to_keep | trajectory_builder_2d | trajectory_builder_2d_options | trajectory_builder_3d
    | trajectory_builder_3d_options | collate_fixed_frame | collate_landmarks | pure_localization_trimmer
    | pose_graph_odometry_motion_filter | sampling_ratio | max_constraint_distance | min_score
    | global_localization_min_score | loop_closure_translation_weight | loop_closure_rotation_weight
    | log_matches | fast_correlative_scan_matcher | fast_correlative_scan_matcher_options
    | fast_correlative_scan_matcher_3d | fast_correlative_scan_matcher_options_3d | ceres_scan_matcher_3d
    | ceres_scan_matcher_options_3d | acceleration_weight | local_slam_pose_translation_weight
    | local_slam_pose_rotation_weight | fixed_frame_pose_translation_weight | fixed_frame_pose_rotation_weight
    | fixed_frame_pose_use_tolerant_loss | fixed_frame_pose_tolerant_loss_param_a
    | fixed_frame_pose_tolerant_loss_param_b | log_solver_summary | use_online_imu_extrinsics_in_3d
    | fix_z_in_3d | fresh_submaps_count | min_covered_area | min_added_submaps_count | optimize_every_n_nodes
    | constraint_builder | constraint_builder_options | matcher_translation_weight | matcher_rotation_weight
    | optimization_problem | optimization_problem_options | max_num_final_iterations | global_sampling_ratio
    | log_residual_histograms | global_constraint_search_after_n_seconds | overlapping_submaps_trimmer_2d
    | use_trajectory_builder_2d | use_trajectory_builder_3d | num_background_threads | collate_by_trajectory
    | pose_graph | pose_graph_options | server_address | num_grpc_threads | num_event_threads | map_builder
    | map_builder_options | uplink_server_address | upload_batch_size | enable_ssl_encryption
    | enable_google_auth | initial_poses | initial_imu_data | initial_trajectory_pose | pure_localization
    | INVALID_INSERTER | PROBABILITY_GRID_INSERTER_2D | TSDF_INSERTER_2D | INVALID_GRID | PROBABILITY_GRID
    | TSDF | other
  deriving DecidableEq, Repr

/-- A string: the name itself for the number 0, the name followed by `_i` for the number `i + 1`. Strings that are neither
are `other`, each with a number of its own. -/
structure Str where
  name : Name
  number : Nat
  deriving Repr

/-- The string that is just the name. -/
def plain (n : Name) : Str := ⟨n, 0⟩

/-- The name with `_i`. -/
def numbered (n : Name) (i : Nat) : Str := ⟨n, i + 1⟩

/-- Any other string. -/
def other (i : Nat) : Str := ⟨.other, i⟩

/-- A linear order on strings, which dictionaries need. -/
def Str.rank (s : Str) : ℕ ×ₗ ℕ := toLex (s.name.ctorIdx, s.number)

theorem Name.ctorIdx_injective : Function.Injective Name.ctorIdx := fun a b h => by
  have : ∀ a : Name, Name.ofNat a.ctorIdx = a := by intro a; cases a <;> rfl
  rw [← this a, h, this b]

theorem Str.rank_injective : Function.Injective Str.rank := fun a b h => by
  obtain ⟨n, i⟩ := a
  obtain ⟨m, j⟩ := b
  have h' : (n.ctorIdx, i) = (m.ctorIdx, j) := congrArg ofLex h
  rw [Prod.mk.injEq] at h'
  rw [Name.ctorIdx_injective h'.1, h'.2]

instance : LinearOrder Str := LinearOrder.lift' Str.rank Str.rank_injective

/-- The messages. -/
inductive Msg where
  | AdaptiveVoxelFilterOptions | CeresSolverOptions | IntensityCostFunctionOptions | CeresScanMatcherOptions3D
    | RealTimeCorrelativeScanMatcherOptions | FastCorrelativeScanMatcherOptions3D
    | FastCorrelativeScanMatcherOptions2D | CeresScanMatcherOptions2D | MotionFilterOptions
    | ConstantVelocityPoseExtrapolatorOptions | ImuBasedPoseExtrapolatorOptions | PoseExtrapolatorOptions
    | NormalEstimationOptions2D | TSDFRangeDataInserterOptions2D | ProbabilityGridRangeDataInserterOptions2D
    | RangeDataInserterOptions | RangeDataInserterOptions3D | GridOptions2D | SubmapsOptions2D
    | SubmapsOptions3D | LocalTrajectoryBuilderOptions2D | LocalTrajectoryBuilderOptions3D
    | TrajectoryBuilderOptions | PureLocalizationTrimmerOptions | OptimizationProblemOptions
    | ConstraintBuilderOptions | PoseGraphOptions | OverlappingSubmapsTrimmerOptions2D | MapBuilderOptions
    | MapBuilderServerOptions
  deriving DecidableEq, Repr

/-- The enums. -/
inductive Enum where
  | RangeDataInserterType | GridType
  deriving DecidableEq, Repr

/-- The types of fields. `elsewhere` is a message that is not part of the configuration, or a field that is deprecated. -/
inductive PType where
  | double | float | int32 | bool | string
  | enum (e : Enum)
  | msg (m : Msg)
  | repeated (t : PType)
  | elsewhere
  deriving DecidableEq, Repr

/-- The fields of the messages, from the .proto files. -/
def fieldsOf : Msg → List (Name × PType)
  -- sensor/proto/adaptive_voxel_filter_options.proto:19-29
  | .AdaptiveVoxelFilterOptions => [
      (.max_length, .float), (.min_num_points, .float), (.max_range, .float)]
  -- common/proto/ceres_solver_options.proto:19-25
  | .CeresSolverOptions => [
      (.use_nonmonotonic_steps, .bool), (.max_num_iterations, .int32), (.num_threads, .int32)]
  -- mapping/proto/scan_matching/ceres_scan_matcher_options_3d.proto:21-26
  | .IntensityCostFunctionOptions => [
      (.weight, .double), (.huber_scale, .double), (.intensity_threshold, .float)]
  -- mapping/proto/scan_matching/ceres_scan_matcher_options_3d.proto:29-44
  | .CeresScanMatcherOptions3D => [
      (.occupied_space_weight, (.repeated .double)), (.translation_weight, .double), (.rotation_weight, .double),
      (.only_optimize_yaw, .bool), (.ceres_solver_options, .msg .CeresSolverOptions),
      (.intensity_cost_function_options, (.repeated (.msg .IntensityCostFunctionOptions)))]
  -- mapping/proto/scan_matching/real_time_correlative_scan_matcher_options.proto:19-31
  | .RealTimeCorrelativeScanMatcherOptions => [
      (.linear_search_window, .double), (.angular_search_window, .double), (.translation_delta_cost_weight, .double),
      (.rotation_delta_cost_weight, .double)]
  -- mapping/proto/scan_matching/fast_correlative_scan_matcher_options_3d.proto:19-45
  | .FastCorrelativeScanMatcherOptions3D => [
      (.branch_and_bound_depth, .int32), (.full_resolution_depth, .int32), (.min_rotational_score, .double),
      (.min_low_resolution_score, .double), (.linear_xy_search_window, .double), (.linear_z_search_window, .double),
      (.angular_search_window, .double)]
  -- mapping/proto/scan_matching/fast_correlative_scan_matcher_options_2d.proto:19-30
  | .FastCorrelativeScanMatcherOptions2D => [
      (.linear_search_window, .double), (.angular_search_window, .double), (.branch_and_bound_depth, .int32)]
  -- mapping/proto/scan_matching/ceres_scan_matcher_options_2d.proto:22-31
  | .CeresScanMatcherOptions2D => [
      (.occupied_space_weight, .double), (.translation_weight, .double), (.rotation_weight, .double),
      (.ceres_solver_options, .msg .CeresSolverOptions)]
  -- mapping/proto/motion_filter_options.proto:19-28
  | .MotionFilterOptions => [
      (.max_time_seconds, .double), (.max_distance_meters, .double), (.max_angle_radians, .double)]
  -- mapping/proto/pose_extrapolator_options.proto:21-30
  | .ConstantVelocityPoseExtrapolatorOptions => [
      (.imu_gravity_time_constant, .double), (.pose_queue_duration, .double)]
  -- mapping/proto/pose_extrapolator_options.proto:32-42
  | .ImuBasedPoseExtrapolatorOptions => [
      (.pose_queue_duration, .double), (.gravity_constant, .double), (.pose_translation_weight, .double),
      (.pose_rotation_weight, .double), (.imu_acceleration_weight, .double), (.imu_rotation_weight, .double),
      (.solver_options, .msg .CeresSolverOptions), (.odometry_translation_weight, .double),
      (.odometry_rotation_weight, .double)]
  -- mapping/proto/pose_extrapolator_options.proto:44-48
  | .PoseExtrapolatorOptions => [
      (.use_imu_based, .bool), (.constant_velocity, .msg .ConstantVelocityPoseExtrapolatorOptions),
      (.imu_based, .msg .ImuBasedPoseExtrapolatorOptions)]
  -- mapping/proto/normal_estimation_options_2d.proto:19-22
  | .NormalEstimationOptions2D => [
      (.num_normal_samples, .int32), (.sample_radius, .float)]
  -- mapping/proto/tsdf_range_data_inserter_options_2d.proto:21-47
  | .TSDFRangeDataInserterOptions2D => [
      (.truncation_distance, .double), (.maximum_weight, .double), (.update_free_space, .bool),
      (.normal_estimation_options, .msg .NormalEstimationOptions2D), (.project_sdf_distance_to_scan_normal, .bool),
      (.update_weight_range_exponent, .int32), (.update_weight_angle_scan_normal_to_ray_kernel_bandwidth, .double),
      (.update_weight_distance_cell_to_hit_kernel_bandwidth, .double)]
  -- mapping/proto/probability_grid_range_data_inserter_options_2d.proto:19-31
  | .ProbabilityGridRangeDataInserterOptions2D => [
      (.hit_probability, .double), (.miss_probability, .double), (.insert_free_space, .bool)]
  -- mapping/proto/range_data_inserter_options.proto:22-33
  | .RangeDataInserterOptions => [
      (.range_data_inserter_type, .enum .RangeDataInserterType),
      (.probability_grid_range_data_inserter_options_2d, .msg .ProbabilityGridRangeDataInserterOptions2D),
      (.tsdf_range_data_inserter_options_2d, .msg .TSDFRangeDataInserterOptions2D)]
  -- mapping/proto/range_data_inserter_options_3d.proto:19-34
  | .RangeDataInserterOptions3D => [
      (.hit_probability, .double), (.miss_probability, .double), (.num_free_space_voxels, .int32),
      (.intensity_threshold, .float)]
  -- mapping/proto/grid_2d_options.proto:19-28
  | .GridOptions2D => [
      (.grid_type, .enum .GridType), (.resolution, .float)]
  -- mapping/proto/submaps_options_2d.proto:22-29
  | .SubmapsOptions2D => [
      (.num_range_data, .int32), (.grid_options_2d, .msg .GridOptions2D),
      (.range_data_inserter_options, .msg .RangeDataInserterOptions)]
  -- mapping/proto/submaps_options_3d.proto:21-40
  | .SubmapsOptions3D => [
      (.high_resolution, .double), (.high_resolution_max_range, .double), (.low_resolution, .double),
      (.num_range_data, .int32), (.range_data_inserter_options, .msg .RangeDataInserterOptions3D)]
  -- mapping/proto/local_trajectory_builder_options_2d.proto:27-77
  | .LocalTrajectoryBuilderOptions2D => [
      (.min_range, .float), (.max_range, .float), (.min_z, .float), (.max_z, .float), (.missing_data_ray_length, .float),
      (.num_accumulated_range_data, .int32), (.voxel_filter_size, .float),
      (.adaptive_voxel_filter_options, .msg .AdaptiveVoxelFilterOptions),
      (.loop_closure_adaptive_voxel_filter_options, .msg .AdaptiveVoxelFilterOptions),
      (.use_online_correlative_scan_matching, .bool),
      (.real_time_correlative_scan_matcher_options, .msg .RealTimeCorrelativeScanMatcherOptions),
      (.ceres_scan_matcher_options, .msg .CeresScanMatcherOptions2D), (.motion_filter_options, .msg .MotionFilterOptions),
      (.imu_gravity_time_constant, .double), (.pose_extrapolator_options, .msg .PoseExtrapolatorOptions),
      (.submaps_options, .msg .SubmapsOptions2D), (.use_imu_data, .bool)]
  -- mapping/proto/local_trajectory_builder_options_3d.proto:29-79
  | .LocalTrajectoryBuilderOptions3D => [
      (.min_range, .float), (.max_range, .float), (.num_accumulated_range_data, .int32), (.voxel_filter_size, .float),
      (.high_resolution_adaptive_voxel_filter_options, .msg .AdaptiveVoxelFilterOptions),
      (.low_resolution_adaptive_voxel_filter_options, .msg .AdaptiveVoxelFilterOptions),
      (.use_online_correlative_scan_matching, .bool),
      (.real_time_correlative_scan_matcher_options, .msg .RealTimeCorrelativeScanMatcherOptions),
      (.ceres_scan_matcher_options, .msg .CeresScanMatcherOptions3D), (.motion_filter_options, .msg .MotionFilterOptions),
      (.imu_gravity_time_constant, .double), (.rotational_histogram_size, .int32),
      (.pose_extrapolator_options, .msg .PoseExtrapolatorOptions), (.initial_poses, .elsewhere),
      (.initial_imu_data, .elsewhere), (.submaps_options, .msg .SubmapsOptions3D), (.use_intensities, .bool)]
  -- mapping/proto/trajectory_builder_options.proto:30-47
  | .TrajectoryBuilderOptions => [
      (.trajectory_builder_2d_options, .msg .LocalTrajectoryBuilderOptions2D),
      (.trajectory_builder_3d_options, .msg .LocalTrajectoryBuilderOptions3D), (.initial_trajectory_pose, .elsewhere),
      (.pure_localization, .elsewhere), (.pure_localization_trimmer, .msg .PureLocalizationTrimmerOptions),
      (.collate_fixed_frame, .bool), (.collate_landmarks, .bool),
      (.pose_graph_odometry_motion_filter, .msg .MotionFilterOptions)]
  -- mapping/proto/trajectory_builder_options.proto:38-40
  | .PureLocalizationTrimmerOptions => [
      (.max_submaps_to_keep, .int32)]
  -- mapping/proto/pose_graph/optimization_problem_options.proto:22-73
  | .OptimizationProblemOptions => [
      (.huber_scale, .double), (.acceleration_weight, .double), (.rotation_weight, .double),
      (.local_slam_pose_translation_weight, .double), (.local_slam_pose_rotation_weight, .double),
      (.odometry_translation_weight, .double), (.odometry_rotation_weight, .double),
      (.fixed_frame_pose_translation_weight, .double), (.fixed_frame_pose_rotation_weight, .double),
      (.fixed_frame_pose_use_tolerant_loss, .bool), (.fixed_frame_pose_tolerant_loss_param_a, .double),
      (.fixed_frame_pose_tolerant_loss_param_b, .double), (.fix_z_in_3d, .bool), (.use_online_imu_extrinsics_in_3d, .bool),
      (.log_solver_summary, .bool), (.ceres_solver_options, .msg .CeresSolverOptions)]
  -- mapping/proto/pose_graph/constraint_builder_options.proto:24-59
  | .ConstraintBuilderOptions => [
      (.sampling_ratio, .double), (.max_constraint_distance, .double), (.min_score, .double),
      (.global_localization_min_score, .double), (.loop_closure_translation_weight, .double),
      (.loop_closure_rotation_weight, .double), (.log_matches, .bool),
      (.fast_correlative_scan_matcher_options, .msg .FastCorrelativeScanMatcherOptions2D),
      (.ceres_scan_matcher_options, .msg .CeresScanMatcherOptions2D),
      (.fast_correlative_scan_matcher_options_3d, .msg .FastCorrelativeScanMatcherOptions3D),
      (.ceres_scan_matcher_options_3d, .msg .CeresScanMatcherOptions3D)]
  -- mapping/proto/pose_graph_options.proto:22-68
  | .PoseGraphOptions => [
      (.optimize_every_n_nodes, .int32), (.constraint_builder_options, .msg .ConstraintBuilderOptions),
      (.matcher_translation_weight, .double), (.matcher_rotation_weight, .double),
      (.optimization_problem_options, .msg .OptimizationProblemOptions), (.max_num_final_iterations, .int32),
      (.global_sampling_ratio, .double), (.log_residual_histograms, .bool),
      (.global_constraint_search_after_n_seconds, .double),
      (.overlapping_submaps_trimmer_2d, .msg .OverlappingSubmapsTrimmerOptions2D)]
  -- mapping/proto/pose_graph_options.proto:59-63
  | .OverlappingSubmapsTrimmerOptions2D => [
      (.fresh_submaps_count, .int32), (.min_covered_area, .double), (.min_added_submaps_count, .int32)]
  -- mapping/proto/map_builder_options.proto:21-30
  | .MapBuilderOptions => [
      (.use_trajectory_builder_2d, .bool), (.use_trajectory_builder_3d, .bool), (.num_background_threads, .int32),
      (.pose_graph_options, .msg .PoseGraphOptions), (.collate_by_trajectory, .bool)]
  -- cloud/proto/map_builder_server_options.proto:21-30
  | .MapBuilderServerOptions => [
      (.server_address, .string), (.num_grpc_threads, .int32), (.num_event_threads, .int32),
      (.map_builder_options, .msg .MapBuilderOptions), (.uplink_server_address, .string), (.upload_batch_size, .int32),
      (.enable_ssl_encryption, .bool), (.enable_google_auth, .bool)]

/-- The values of the enums, from the .proto files. -/
def enumValues : Enum → List Name
  -- mapping/proto/range_data_inserter_options.proto:23-27
  | .RangeDataInserterType => [.INVALID_INSERTER, .PROBABILITY_GRID_INSERTER_2D, .TSDF_INSERTER_2D]
  -- mapping/proto/grid_2d_options.proto:20-24
  | .GridType => [.INVALID_GRID, .PROBABILITY_GRID, .TSDF]

/-- The value of a field. A message has a list of values for every field that was set: the values of a repeated field, or the
single value. -/
inductive Val where
  | num (q : ℚ)
  | int (i : Int)
  | bool (b : Bool)
  | str (s : Str)
  | msg (m : Msg) (fields : List (Name × List Val))

/-- The fields that were set. -/
abbrev Fields := List (Name × List Val)

/-- The values of a field. -/
def values (fs : Fields) (n : Name) : List Val := ((fs.find? fun e => decide (e.1 = n)).map Prod.snd).getD []

/-- A field that is a number; 0 when it is not set. -/
def numAt (fs : Fields) (n : Name) : ℚ :=
  match values fs n with
  | [.num q] => q
  | [.int i] => i
  | _ => 0

/-- A field that is a bool; false when it is not set. -/
def boolAt (fs : Fields) (n : Name) : Bool :=
  match values fs n with
  | [.bool b] => b
  | _ => false

/-- A field that is an enum, if it is set. -/
def nameAt (fs : Fields) (n : Name) : Option Name :=
  match values fs n with
  | [.str s] => some s.name
  | _ => none

/-- A field that is a message; empty when it is not set. -/
def msgAt (fs : Fields) (n : Name) : Fields :=
  match values fs n with
  | [.msg _ l] => l
  | _ => []

/-- What is read for a field that is not a message: `GetDouble`, `GetInt`, `GetNonNegativeInt`, `GetBool`, `GetString`
(common/lua_parameter_dictionary.cc:227-288, 418-422), or `GetString` with the `_Parse` function of an enum. -/
inductive Kind where
  | double | int | nonNegativeInt | bool | string
  | choice (names : List Name)

/-- How often a key is read: always; if it is there (with the value of the field otherwise); or, with numbers 0, 1, … at its
end, until there is none. -/
inductive Mode where
  | required
  | optional (default : Option Val)
  | numbered

mutual
/-- A function that makes a value from what is under a key: one of the `Get…` functions, or a `Create…Options` function, which
reads its dictionary entry by entry and then checks the resulting message. -/
inductive Reader where
  | leaf (k : Kind)
  | dict (m : Msg) (es : Entries) (ok : Fields → Bool)
/-- The reads of a function: the key, the field that is set, how often, and what is read. -/
inductive Entries where
  | nil
  | cons (key field : Name) (mode : Mode) (r : Reader) (rest : Entries)
end

/-- One read, for a list of reads in the notation of Lean. -/
structure Entry where
  key : Name
  field : Name
  mode : Mode
  reader : Reader

/-- The list of reads. -/
def entries : List Entry → Entries
  | [] => .nil
  | e :: l => .cons e.key e.field e.mode e.reader (entries l)

/-- A key that has to be there, for the field of the same name. -/
def need (n : Name) (r : Reader) : Entry := ⟨n, n, .required, r⟩

/-! ## Running a function -/

/-- `lua_tostring` of a number. -/
abbrev ToText := ℚ → Str

/-- The string of `GetString`. -/
def asText (N : ToText) : Value Str → Option Str
  | .str s => some s
  | .num q => some (N q)
  | _ => none

/-- `GetDouble` and so on, with the value. -/
def readLeaf (T : ToNumber Str) (N : ToText) : Kind → Value Str → Option Val
  | .double, v => (asNumber T v).map .num
  | .int, v => (asNumber T v).map fun q => .int (truncate q)
  | .nonNegativeInt, v => (asNumber T v).bind fun q => if 0 ≤ truncate q then some (.int (truncate q)) else none
  | .bool, .bool b => some (.bool b)
  | .bool, _ => none
  | .string, v => (asText N v).map .str
  | .choice ns, v => (asText N v).bind fun s => if s ∈ ns.map plain then some (.str s) else none

/-- The numbers 0, 1, … as long as there is such a key. There are no more than entries. -/
def count (t : Table Str) (key : Name) : Nat → Nat → Nat
  | 0, i => i
  | fuel + 1, i => if hasKey t (numbered key i) then count t key fuel (i + 1) else i

/-- The keys that are read for an entry. -/
def keysRead (t : Table Str) (key : Name) : Mode → List Str
  | .required => [plain key]
  | .optional _ => if hasKey t (plain key) then [plain key] else []
  | .numbered => (List.range (count t key (t.length + 1) 0)).map (numbered key)

/-- Reads several keys. -/
def readKeys (f : Value Str → Option Val) : List Str → Dict Str → Option (List Val × Dict Str)
  | [], d => some ([], d)
  | k :: l, d => do
    let (v, d) ← reference d k
    let x ← f v
    let (xs, d) ← readKeys f l d
    some (x :: xs, d)

/-- What the field is set to. -/
def fieldValues : Mode → List Val → List Val
  | .optional (some x), [] => [x]
  | _, xs => xs

/-- The checks at the end of a function. -/
def finish (m : Msg) (ok : Fields → Bool) (fs : Fields) : Option Val := if ok fs then some (.msg m fs) else none

mutual
/-- Makes the value from what is under the key. A dictionary is destroyed at the end, which checks that all keys were read
exactly once. -/
def Reader.read (T : ToNumber Str) (N : ToText) (counted : Bool) : Reader → Value Str → Option Val
  | .leaf k, v => readLeaf T N k v
  | .dict m es ok, .table t => do
    let (fs, d) ← es.read T N counted { table := t, counted := counted }
    let x ← finish m ok fs
    let _ ← destroy T d
    some x
  | .dict _ _ _, _ => none
/-- Reads entry by entry. -/
def Entries.read (T : ToNumber Str) (N : ToText) (counted : Bool) : Entries → Dict Str → Option (Fields × Dict Str)
  | .nil, d => some ([], d)
  | .cons key field mode r rest, d => do
    let (xs, d) ← readKeys (fun v => r.read T N counted v) (keysRead d.table key mode) d
    let (fs, d) ← rest.read T N counted d
    some ((field, fieldValues mode xs) :: fs, d)
end

/-! ## The functions -/

/-- The checks of `CreateSubmapsOptions2D`: the kind of grid and the kind of inserter belong together, and there is at least one
scan per submap (mapping/2d/submap_2d.cc:46-66). -/
def submaps2DOk (fs : Fields) : Bool :=
  let grid := nameAt (msgAt fs .grid_options_2d) .grid_type
  let inserter := nameAt (msgAt fs .range_data_inserter_options) .range_data_inserter_type
  (decide (grid = some .PROBABILITY_GRID ∧ inserter = some .PROBABILITY_GRID_INSERTER_2D) ||
    decide (grid = some .TSDF ∧ inserter = some .TSDF_INSERTER_2D)) &&
  decide (0 < numAt fs .num_range_data)

/-- `CreateAdaptiveVoxelFilterOptions`, sensor/internal/voxel_filter.cc:182-190. -/
def adaptiveVoxelFilter : Reader := .dict .AdaptiveVoxelFilterOptions (entries [
    need .max_length (.leaf .double),
    need .min_num_points (.leaf .nonNegativeInt),
    need .max_range (.leaf .double)])
  (fun _ => true)

/-- `CreateCeresSolverOptionsProto`, common/internal/ceres_solver_options.cc:22-33. -/
def ceresSolver : Reader := .dict .CeresSolverOptions (entries [
    need .use_nonmonotonic_steps (.leaf .bool),
    need .max_num_iterations (.leaf .nonNegativeInt),
    need .num_threads (.leaf .nonNegativeInt)])
  (fun fs => decide (0 < numAt fs .max_num_iterations) && decide (0 < numAt fs .num_threads))

/-- `CreateConstantVelocityPoseExtrapolatorOptions`, mapping/pose_extrapolator_interface.cc:29-38. -/
def constantVelocity : Reader := .dict .ConstantVelocityPoseExtrapolatorOptions (entries [
    need .pose_queue_duration (.leaf .double),
    need .imu_gravity_time_constant (.leaf .double)])
  (fun _ => true)

/-- `CreateImuBasedPoseExtrapolatorOptions`, mapping/pose_extrapolator_interface.cc:40-64. -/
def imuBased : Reader := .dict .ImuBasedPoseExtrapolatorOptions (entries [
    need .pose_queue_duration (.leaf .double),
    need .gravity_constant (.leaf .double),
    need .pose_translation_weight (.leaf .double),
    need .pose_rotation_weight (.leaf .double),
    need .imu_acceleration_weight (.leaf .double),
    need .imu_rotation_weight (.leaf .double),
    need .odometry_rotation_weight (.leaf .double),
    need .odometry_translation_weight (.leaf .double),
    ⟨.solver_options, .solver_options, .required, ceresSolver⟩])
  (fun _ => true)

/-- `CreatePoseExtrapolatorOptions`, mapping/pose_extrapolator_interface.cc:68-79. -/
def poseExtrapolator : Reader := .dict .PoseExtrapolatorOptions (entries [
    need .use_imu_based (.leaf .bool),
    ⟨.constant_velocity, .constant_velocity, .required, constantVelocity⟩,
    ⟨.imu_based, .imu_based, .required, imuBased⟩])
  (fun _ => true)

/-- `CreateMotionFilterOptions`, mapping/internal/motion_filter.cc:25-35, and trajectory_builder_interface.cc:48-55. -/
def motionFilter : Reader := .dict .MotionFilterOptions (entries [
    need .max_time_seconds (.leaf .double),
    need .max_distance_meters (.leaf .double),
    need .max_angle_radians (.leaf .double)])
  (fun _ => true)

/-- `CreateRealTimeCorrelativeScanMatcherOptions`, mapping/internal/scan_matching/real_time_correlative_scan_matcher.cc:7-22. -/
def realTimeCorrelative : Reader := .dict .RealTimeCorrelativeScanMatcherOptions (entries [
    need .linear_search_window (.leaf .double),
    need .angular_search_window (.leaf .double),
    need .translation_delta_cost_weight (.leaf .double),
    need .rotation_delta_cost_weight (.leaf .double)])
  (fun fs => decide (0 ≤ numAt fs .translation_delta_cost_weight) && decide (0 ≤ numAt fs .rotation_delta_cost_weight))

/-- `CreateFastCorrelativeScanMatcherOptions2D`, mapping/internal/2d/scan_matching/fast_correlative_scan_matcher_2d.cc:78-89. -/
def fastCorrelative2D : Reader := .dict .FastCorrelativeScanMatcherOptions2D (entries [
    need .linear_search_window (.leaf .double),
    need .angular_search_window (.leaf .double),
    need .branch_and_bound_depth (.leaf .int)])
  (fun _ => true)

/-- `CreateFastCorrelativeScanMatcherOptions3D`, mapping/internal/3d/scan_matching/fast_correlative_scan_matcher_3d.cc:36-55. -/
def fastCorrelative3D : Reader := .dict .FastCorrelativeScanMatcherOptions3D (entries [
    need .branch_and_bound_depth (.leaf .int),
    need .full_resolution_depth (.leaf .int),
    need .min_rotational_score (.leaf .double),
    need .min_low_resolution_score (.leaf .double),
    need .linear_xy_search_window (.leaf .double),
    need .linear_z_search_window (.leaf .double),
    need .angular_search_window (.leaf .double)])
  (fun _ => true)

/-- `CreateCeresScanMatcherOptions2D`, mapping/internal/2d/scan_matching/ceres_scan_matcher_2d.cc:38-51. -/
def ceresScanMatcher2D : Reader := .dict .CeresScanMatcherOptions2D (entries [
    need .occupied_space_weight (.leaf .double),
    need .translation_weight (.leaf .double),
    need .rotation_weight (.leaf .double),
    ⟨.ceres_solver_options, .ceres_solver_options, .required, ceresSolver⟩])
  (fun _ => true)

/-- the body of the second loop in mapping/internal/3d/scan_matching/ceres_scan_matcher_3d.cc:58-69. -/
def intensityCost : Reader := .dict .IntensityCostFunctionOptions (entries [
    need .weight (.leaf .double),
    need .huber_scale (.leaf .double),
    need .intensity_threshold (.leaf .double)])
  (fun _ => true)

/-- `CreateCeresScanMatcherOptions3D`, mapping/internal/3d/scan_matching/ceres_scan_matcher_3d.cc:40-80. -/
def ceresScanMatcher3D : Reader := .dict .CeresScanMatcherOptions3D (entries [
    ⟨.occupied_space_weight, .occupied_space_weight, .numbered, .leaf .double⟩,
    ⟨.intensity_cost_function_options, .intensity_cost_function_options, .numbered, intensityCost⟩,
    need .translation_weight (.leaf .double),
    need .rotation_weight (.leaf .double),
    need .only_optimize_yaw (.leaf .bool),
    ⟨.ceres_solver_options, .ceres_solver_options, .required, ceresSolver⟩])
  (fun _ => true)

/-- `CreateNormalEstimationOptions2D`, mapping/internal/2d/normal_estimation_2d.cc:64-73. -/
def normalEstimation : Reader := .dict .NormalEstimationOptions2D (entries [
    need .num_normal_samples (.leaf .int),
    need .sample_radius (.leaf .double)])
  (fun fs => decide (0 < numAt fs .num_normal_samples) && decide (0 < numAt fs .sample_radius))

/-- `CreateTSDFRangeDataInserterOptions2D`, mapping/internal/2d/tsdf_range_data_inserter_2d.cc:99-121. -/
def tsdfInserter : Reader := .dict .TSDFRangeDataInserterOptions2D (entries [
    need .truncation_distance (.leaf .double),
    need .maximum_weight (.leaf .double),
    need .update_free_space (.leaf .bool),
    ⟨.normal_estimation_options, .normal_estimation_options, .required, normalEstimation⟩,
    need .project_sdf_distance_to_scan_normal (.leaf .bool),
    need .update_weight_range_exponent (.leaf .int),
    need .update_weight_angle_scan_normal_to_ray_kernel_bandwidth (.leaf .double),
    need .update_weight_distance_cell_to_hit_kernel_bandwidth (.leaf .double)])
  (fun _ => true)

/-- `CreateProbabilityGridRangeDataInserterOptions2D`, mapping/2d/probability_grid_range_data_inserter_2d.cc:99-114. -/
def probabilityInserter : Reader := .dict .ProbabilityGridRangeDataInserterOptions2D (entries [
    need .hit_probability (.leaf .double),
    need .miss_probability (.leaf .double),
    ⟨.insert_free_space, .insert_free_space, .optional (some (.bool true)), .leaf .bool⟩])
  (fun fs => decide (1 / 2 < numAt fs .hit_probability) && decide (numAt fs .miss_probability < 1 / 2))

/-- `CreateRangeDataInserterOptions`, mapping/range_data_inserter_interface.cc:25-47. -/
def rangeDataInserter : Reader := .dict .RangeDataInserterOptions (entries [
    need .range_data_inserter_type (.leaf (.choice (enumValues .RangeDataInserterType))),
    ⟨.probability_grid_range_data_inserter, .probability_grid_range_data_inserter_options_2d, .required, probabilityInserter⟩,
    ⟨.tsdf_range_data_inserter, .tsdf_range_data_inserter_options_2d, .required, tsdfInserter⟩])
  (fun _ => true)

/-- `CreateRangeDataInserterOptions3D`, mapping/3d/range_data_inserter_3d.cc:71-85. -/
def rangeDataInserter3D : Reader := .dict .RangeDataInserterOptions3D (entries [
    need .hit_probability (.leaf .double),
    need .miss_probability (.leaf .double),
    need .num_free_space_voxels (.leaf .int),
    need .intensity_threshold (.leaf .double)])
  (fun fs => decide (1 / 2 < numAt fs .hit_probability) && decide (numAt fs .miss_probability < 1 / 2))

/-- `CreateGridOptions2D`, mapping/2d/grid_2d.cc:47-58. -/
def grid2D : Reader := .dict .GridOptions2D (entries [
    need .grid_type (.leaf (.choice (enumValues .GridType))),
    need .resolution (.leaf .double)])
  (fun _ => true)

/-- `CreateSubmapsOptions2D`, mapping/2d/submap_2d.cc:36-68. -/
def submaps2D : Reader := .dict .SubmapsOptions2D (entries [
    need .num_range_data (.leaf .nonNegativeInt),
    ⟨.grid_options_2d, .grid_options_2d, .required, grid2D⟩,
    ⟨.range_data_inserter, .range_data_inserter_options, .required, rangeDataInserter⟩])
  (submaps2DOk)

/-- `CreateSubmapsOptions3D`, mapping/3d/submap_3d.cc:180-195. -/
def submaps3D : Reader := .dict .SubmapsOptions3D (entries [
    need .high_resolution (.leaf .double),
    need .high_resolution_max_range (.leaf .double),
    need .low_resolution (.leaf .double),
    need .num_range_data (.leaf .nonNegativeInt),
    ⟨.range_data_inserter, .range_data_inserter_options, .required, rangeDataInserter3D⟩])
  (fun fs => decide (0 < numAt fs .num_range_data))

/-- `CreateLocalTrajectoryBuilderOptions2D`, mapping/internal/2d/local_trajectory_builder_options_2d.cc:29-72. -/
def localBuilder2D : Reader := .dict .LocalTrajectoryBuilderOptions2D (entries [
    need .min_range (.leaf .double),
    need .max_range (.leaf .double),
    need .min_z (.leaf .double),
    need .max_z (.leaf .double),
    need .missing_data_ray_length (.leaf .double),
    need .num_accumulated_range_data (.leaf .int),
    need .voxel_filter_size (.leaf .double),
    need .use_online_correlative_scan_matching (.leaf .bool),
    ⟨.adaptive_voxel_filter, .adaptive_voxel_filter_options, .required, adaptiveVoxelFilter⟩,
    ⟨.loop_closure_adaptive_voxel_filter, .loop_closure_adaptive_voxel_filter_options, .required, adaptiveVoxelFilter⟩,
    ⟨.real_time_correlative_scan_matcher, .real_time_correlative_scan_matcher_options, .required, realTimeCorrelative⟩,
    ⟨.ceres_scan_matcher, .ceres_scan_matcher_options, .required, ceresScanMatcher2D⟩,
    ⟨.motion_filter, .motion_filter_options, .required, motionFilter⟩,
    ⟨.pose_extrapolator, .pose_extrapolator_options, .required, poseExtrapolator⟩,
    need .imu_gravity_time_constant (.leaf .double),
    ⟨.submaps, .submaps_options, .required, submaps2D⟩,
    need .use_imu_data (.leaf .bool)])
  (fun _ => true)

/-- `CreateLocalTrajectoryBuilderOptions3D`, mapping/internal/3d/local_trajectory_builder_options_3d.cc:30-74. -/
def localBuilder3D : Reader := .dict .LocalTrajectoryBuilderOptions3D (entries [
    need .min_range (.leaf .double),
    need .max_range (.leaf .double),
    need .num_accumulated_range_data (.leaf .int),
    need .voxel_filter_size (.leaf .double),
    ⟨.high_resolution_adaptive_voxel_filter, .high_resolution_adaptive_voxel_filter_options, .required, adaptiveVoxelFilter⟩,
    ⟨.low_resolution_adaptive_voxel_filter, .low_resolution_adaptive_voxel_filter_options, .required, adaptiveVoxelFilter⟩,
    need .use_online_correlative_scan_matching (.leaf .bool),
    ⟨.real_time_correlative_scan_matcher, .real_time_correlative_scan_matcher_options, .required, realTimeCorrelative⟩,
    ⟨.ceres_scan_matcher, .ceres_scan_matcher_options, .required, ceresScanMatcher3D⟩,
    ⟨.motion_filter, .motion_filter_options, .required, motionFilter⟩,
    ⟨.pose_extrapolator, .pose_extrapolator_options, .required, poseExtrapolator⟩,
    need .imu_gravity_time_constant (.leaf .double),
    need .rotational_histogram_size (.leaf .int),
    ⟨.submaps, .submaps_options, .required, submaps3D⟩,
    need .use_intensities (.leaf .bool)])
  (fun _ => true)

/-- `PopulatePureLocalizationTrimmerOptions`, mapping/trajectory_builder_interface.cc:27-39. -/
def pureLocalizationTrimmer : Reader := .dict .PureLocalizationTrimmerOptions (entries [
    need .max_submaps_to_keep (.leaf .int)])
  (fun _ => true)

/-- `CreateTrajectoryBuilderOptions`, mapping/trajectory_builder_interface.cc:27-76. -/
def trajectoryBuilder : Reader := .dict .TrajectoryBuilderOptions (entries [
    ⟨.trajectory_builder_2d, .trajectory_builder_2d_options, .required, localBuilder2D⟩,
    ⟨.trajectory_builder_3d, .trajectory_builder_3d_options, .required, localBuilder3D⟩,
    need .collate_fixed_frame (.leaf .bool),
    need .collate_landmarks (.leaf .bool),
    ⟨.pure_localization_trimmer, .pure_localization_trimmer, .optional none, pureLocalizationTrimmer⟩,
    ⟨.pose_graph_odometry_motion_filter, .pose_graph_odometry_motion_filter, .optional none, motionFilter⟩])
  (fun _ => true)

/-- `CreateConstraintBuilderOptions`, mapping/internal/constraints/constraint_builder.cc:29-60. -/
def constraintBuilder : Reader := .dict .ConstraintBuilderOptions (entries [
    need .sampling_ratio (.leaf .double),
    need .max_constraint_distance (.leaf .double),
    need .min_score (.leaf .double),
    need .global_localization_min_score (.leaf .double),
    need .loop_closure_translation_weight (.leaf .double),
    need .loop_closure_rotation_weight (.leaf .double),
    need .log_matches (.leaf .bool),
    ⟨.fast_correlative_scan_matcher, .fast_correlative_scan_matcher_options, .required, fastCorrelative2D⟩,
    ⟨.ceres_scan_matcher, .ceres_scan_matcher_options, .required, ceresScanMatcher2D⟩,
    ⟨.fast_correlative_scan_matcher_3d, .fast_correlative_scan_matcher_options_3d, .required, fastCorrelative3D⟩,
    ⟨.ceres_scan_matcher_3d, .ceres_scan_matcher_options_3d, .required, ceresScanMatcher3D⟩])
  (fun _ => true)

/-- `CreateOptimizationProblemOptions`, mapping/internal/optimization/optimization_problem_options.cc:25-63. -/
def optimizationProblem : Reader := .dict .OptimizationProblemOptions (entries [
    need .huber_scale (.leaf .double),
    need .acceleration_weight (.leaf .double),
    need .rotation_weight (.leaf .double),
    need .odometry_translation_weight (.leaf .double),
    need .odometry_rotation_weight (.leaf .double),
    need .local_slam_pose_translation_weight (.leaf .double),
    need .local_slam_pose_rotation_weight (.leaf .double),
    need .fixed_frame_pose_translation_weight (.leaf .double),
    need .fixed_frame_pose_rotation_weight (.leaf .double),
    need .fixed_frame_pose_use_tolerant_loss (.leaf .bool),
    need .fixed_frame_pose_tolerant_loss_param_a (.leaf .double),
    need .fixed_frame_pose_tolerant_loss_param_b (.leaf .double),
    need .log_solver_summary (.leaf .bool),
    need .use_online_imu_extrinsics_in_3d (.leaf .bool),
    need .fix_z_in_3d (.leaf .bool),
    ⟨.ceres_solver_options, .ceres_solver_options, .required, ceresSolver⟩])
  (fun _ => true)

/-- `PopulateOverlappingSubmapsTrimmerOptions2D`, mapping/pose_graph.cc:72-86. -/
def overlappingTrimmer : Reader := .dict .OverlappingSubmapsTrimmerOptions2D (entries [
    need .fresh_submaps_count (.leaf .int),
    need .min_covered_area (.leaf .double),
    need .min_added_submaps_count (.leaf .int)])
  (fun _ => true)

/-- `CreatePoseGraphOptions`, mapping/pose_graph.cc:88-115. -/
def poseGraph : Reader := .dict .PoseGraphOptions (entries [
    need .optimize_every_n_nodes (.leaf .int),
    ⟨.constraint_builder, .constraint_builder_options, .required, constraintBuilder⟩,
    need .matcher_translation_weight (.leaf .double),
    need .matcher_rotation_weight (.leaf .double),
    ⟨.optimization_problem, .optimization_problem_options, .required, optimizationProblem⟩,
    need .max_num_final_iterations (.leaf .nonNegativeInt),
    need .global_sampling_ratio (.leaf .double),
    need .log_residual_histograms (.leaf .bool),
    need .global_constraint_search_after_n_seconds (.leaf .double),
    ⟨.overlapping_submaps_trimmer_2d, .overlapping_submaps_trimmer_2d, .optional none, overlappingTrimmer⟩])
  (fun fs => decide (0 < numAt fs .max_num_final_iterations))

/-- `CreateMapBuilderOptions`, mapping/map_builder_interface.cc:24-40. -/
def mapBuilder : Reader := .dict .MapBuilderOptions (entries [
    need .use_trajectory_builder_2d (.leaf .bool),
    need .use_trajectory_builder_3d (.leaf .bool),
    need .num_background_threads (.leaf .nonNegativeInt),
    need .collate_by_trajectory (.leaf .bool),
    ⟨.pose_graph, .pose_graph_options, .required, poseGraph⟩])
  (fun fs => boolAt fs .use_trajectory_builder_2d != boolAt fs .use_trajectory_builder_3d)

/-- `CreateMapBuilderServerOptions`, cloud/map_builder_server_options.cc:26-48. -/
def mapBuilderServer : Reader := .dict .MapBuilderServerOptions (entries [
    need .server_address (.leaf .string),
    need .num_grpc_threads (.leaf .int),
    need .num_event_threads (.leaf .int),
    ⟨.map_builder, .map_builder_options, .required, mapBuilder⟩,
    need .uplink_server_address (.leaf .string),
    need .upload_batch_size (.leaf .int),
    need .enable_ssl_encryption (.leaf .bool),
    need .enable_google_auth (.leaf .bool)])
  (fun _ => true)

/-! ## The configuration files -/

/-- `POSE_GRAPH`, configuration_files/pose_graph.lua:15-95. -/
def poseGraphConfig (rad : ℚ → ℚ) : Value Str := .table [
    (.str (plain .optimize_every_n_nodes), .num 90),
    (.str (plain .constraint_builder), .table [
      (.str (plain .sampling_ratio), .num (3 / 10)),
      (.str (plain .max_constraint_distance), .num 15),
      (.str (plain .min_score), .num (11 / 20)),
      (.str (plain .global_localization_min_score), .num (3 / 5)),
      (.str (plain .loop_closure_translation_weight), .num 11000),
      (.str (plain .loop_closure_rotation_weight), .num 100000),
      (.str (plain .log_matches), .bool true),
      (.str (plain .fast_correlative_scan_matcher), .table [
        (.str (plain .linear_search_window), .num 7),
        (.str (plain .angular_search_window), .num (rad 30)),
        (.str (plain .branch_and_bound_depth), .num 7)]),
      (.str (plain .ceres_scan_matcher), .table [
        (.str (plain .occupied_space_weight), .num 20),
        (.str (plain .translation_weight), .num 10),
        (.str (plain .rotation_weight), .num 1),
        (.str (plain .ceres_solver_options), .table [
          (.str (plain .use_nonmonotonic_steps), .bool true),
          (.str (plain .max_num_iterations), .num 10),
          (.str (plain .num_threads), .num 1)])]),
      (.str (plain .fast_correlative_scan_matcher_3d), .table [
        (.str (plain .branch_and_bound_depth), .num 8),
        (.str (plain .full_resolution_depth), .num 3),
        (.str (plain .min_rotational_score), .num (77 / 100)),
        (.str (plain .min_low_resolution_score), .num (11 / 20)),
        (.str (plain .linear_xy_search_window), .num 5),
        (.str (plain .linear_z_search_window), .num 1),
        (.str (plain .angular_search_window), .num (rad 15))]),
      (.str (plain .ceres_scan_matcher_3d), .table [
        (.str (numbered .occupied_space_weight 0), .num 5),
        (.str (numbered .occupied_space_weight 1), .num 30),
        (.str (plain .translation_weight), .num 10),
        (.str (plain .rotation_weight), .num 1),
        (.str (plain .only_optimize_yaw), .bool false),
        (.str (plain .ceres_solver_options), .table [
          (.str (plain .use_nonmonotonic_steps), .bool false),
          (.str (plain .max_num_iterations), .num 10),
          (.str (plain .num_threads), .num 1)])])]),
    (.str (plain .matcher_translation_weight), .num 500),
    (.str (plain .matcher_rotation_weight), .num 1600),
    (.str (plain .optimization_problem), .table [
      (.str (plain .huber_scale), .num 10),
      (.str (plain .acceleration_weight), .num 110),
      (.str (plain .rotation_weight), .num 16000),
      (.str (plain .local_slam_pose_translation_weight), .num 100000),
      (.str (plain .local_slam_pose_rotation_weight), .num 100000),
      (.str (plain .odometry_translation_weight), .num 100000),
      (.str (plain .odometry_rotation_weight), .num 100000),
      (.str (plain .fixed_frame_pose_translation_weight), .num 10),
      (.str (plain .fixed_frame_pose_rotation_weight), .num 100),
      (.str (plain .fixed_frame_pose_use_tolerant_loss), .bool false),
      (.str (plain .fixed_frame_pose_tolerant_loss_param_a), .num 1),
      (.str (plain .fixed_frame_pose_tolerant_loss_param_b), .num 1),
      (.str (plain .log_solver_summary), .bool false),
      (.str (plain .use_online_imu_extrinsics_in_3d), .bool true),
      (.str (plain .fix_z_in_3d), .bool false),
      (.str (plain .ceres_solver_options), .table [
        (.str (plain .use_nonmonotonic_steps), .bool false),
        (.str (plain .max_num_iterations), .num 50),
        (.str (plain .num_threads), .num 7)])]),
    (.str (plain .max_num_final_iterations), .num 200),
    (.str (plain .global_sampling_ratio), .num (3 / 1000)),
    (.str (plain .log_residual_histograms), .bool true),
    (.str (plain .global_constraint_search_after_n_seconds), .num 10)]

/-- `MAP_BUILDER`, configuration_files/map_builder.lua:17-23. The file has `false` for both kinds of trajectory builders, which
users override. -/
def mapBuilderConfig (rad : ℚ → ℚ) (use2d use3d : Bool) : Value Str := .table [
    (.str (plain .use_trajectory_builder_2d), .bool use2d),
    (.str (plain .use_trajectory_builder_3d), .bool use3d),
    (.str (plain .num_background_threads), .num 4),
    (.str (plain .pose_graph), poseGraphConfig rad),
    (.str (plain .collate_by_trajectory), .bool false)]

/-- `MAP_BUILDER` after configuration_files/map_builder_server.lua:28. -/
def serverMapBuilderConfig (rad : ℚ → ℚ) (use2d use3d : Bool) : Value Str := .table [
    (.str (plain .use_trajectory_builder_2d), .bool use2d),
    (.str (plain .use_trajectory_builder_3d), .bool use3d),
    (.str (plain .num_background_threads), .num 4),
    (.str (plain .pose_graph), poseGraphConfig rad),
    (.str (plain .collate_by_trajectory), .bool true)]

/-- `MAP_BUILDER_SERVER`, configuration_files/map_builder_server.lua:17-26. -/
def serverConfig (rad : ℚ → ℚ) (use2d use3d : Bool) : Value Str := .table [
    (.str (plain .map_builder), serverMapBuilderConfig rad use2d use3d),
    (.str (plain .num_event_threads), .num 4),
    (.str (plain .num_grpc_threads), .num 4),
    (.str (plain .server_address), .str (other 0)),
    (.str (plain .uplink_server_address), .str (other 1)),
    (.str (plain .upload_batch_size), .num 100),
    (.str (plain .enable_ssl_encryption), .bool false),
    (.str (plain .enable_google_auth), .bool false)]

/-- `TRAJECTORY_BUILDER_2D`, configuration_files/trajectory_builder_2d.lua:15-115. -/
def builder2DConfig (rad : ℚ → ℚ) : Value Str := .table [
    (.str (plain .use_imu_data), .bool true),
    (.str (plain .min_range), .num 0),
    (.str (plain .max_range), .num 30),
    (.str (plain .min_z), .num (-(4 / 5))),
    (.str (plain .max_z), .num 2),
    (.str (plain .missing_data_ray_length), .num 5),
    (.str (plain .num_accumulated_range_data), .num 1),
    (.str (plain .voxel_filter_size), .num (1 / 40)),
    (.str (plain .adaptive_voxel_filter), .table [
      (.str (plain .max_length), .num (1 / 2)),
      (.str (plain .min_num_points), .num 200),
      (.str (plain .max_range), .num 50)]),
    (.str (plain .loop_closure_adaptive_voxel_filter), .table [
      (.str (plain .max_length), .num (9 / 10)),
      (.str (plain .min_num_points), .num 100),
      (.str (plain .max_range), .num 50)]),
    (.str (plain .use_online_correlative_scan_matching), .bool false),
    (.str (plain .real_time_correlative_scan_matcher), .table [
      (.str (plain .linear_search_window), .num (1 / 10)),
      (.str (plain .angular_search_window), .num (rad 20)),
      (.str (plain .translation_delta_cost_weight), .num (1 / 10)),
      (.str (plain .rotation_delta_cost_weight), .num (1 / 10))]),
    (.str (plain .ceres_scan_matcher), .table [
      (.str (plain .occupied_space_weight), .num 1),
      (.str (plain .translation_weight), .num 10),
      (.str (plain .rotation_weight), .num 40),
      (.str (plain .ceres_solver_options), .table [
        (.str (plain .use_nonmonotonic_steps), .bool false),
        (.str (plain .max_num_iterations), .num 20),
        (.str (plain .num_threads), .num 1)])]),
    (.str (plain .motion_filter), .table [
      (.str (plain .max_time_seconds), .num 5),
      (.str (plain .max_distance_meters), .num (1 / 5)),
      (.str (plain .max_angle_radians), .num (rad 1))]),
    (.str (plain .imu_gravity_time_constant), .num 10),
    (.str (plain .pose_extrapolator), .table [
      (.str (plain .use_imu_based), .bool false),
      (.str (plain .constant_velocity), .table [
        (.str (plain .imu_gravity_time_constant), .num 10),
        (.str (plain .pose_queue_duration), .num (1 / 1000))]),
      (.str (plain .imu_based), .table [
        (.str (plain .pose_queue_duration), .num 5),
        (.str (plain .gravity_constant), .num (4903 / 500)),
        (.str (plain .pose_translation_weight), .num 1),
        (.str (plain .pose_rotation_weight), .num 1),
        (.str (plain .imu_acceleration_weight), .num 1),
        (.str (plain .imu_rotation_weight), .num 1),
        (.str (plain .odometry_translation_weight), .num 1),
        (.str (plain .odometry_rotation_weight), .num 1),
        (.str (plain .solver_options), .table [
          (.str (plain .use_nonmonotonic_steps), .bool false),
          (.str (plain .max_num_iterations), .num 10),
          (.str (plain .num_threads), .num 1)])])]),
    (.str (plain .submaps), .table [
      (.str (plain .num_range_data), .num 90),
      (.str (plain .grid_options_2d), .table [
        (.str (plain .grid_type), .str (plain .PROBABILITY_GRID)),
        (.str (plain .resolution), .num (1 / 20))]),
      (.str (plain .range_data_inserter), .table [
        (.str (plain .range_data_inserter_type), .str (plain .PROBABILITY_GRID_INSERTER_2D)),
        (.str (plain .probability_grid_range_data_inserter), .table [
          (.str (plain .insert_free_space), .bool true),
          (.str (plain .hit_probability), .num (11 / 20)),
          (.str (plain .miss_probability), .num (49 / 100))]),
        (.str (plain .tsdf_range_data_inserter), .table [
          (.str (plain .truncation_distance), .num (3 / 10)),
          (.str (plain .maximum_weight), .num 10),
          (.str (plain .update_free_space), .bool false),
          (.str (plain .normal_estimation_options), .table [
            (.str (plain .num_normal_samples), .num 4),
            (.str (plain .sample_radius), .num (1 / 2))]),
          (.str (plain .project_sdf_distance_to_scan_normal), .bool true),
          (.str (plain .update_weight_range_exponent), .num 0),
          (.str (plain .update_weight_angle_scan_normal_to_ray_kernel_bandwidth), .num (1 / 2)),
          (.str (plain .update_weight_distance_cell_to_hit_kernel_bandwidth), .num (1 / 2))])])])]

/-- `TRAJECTORY_BUILDER_3D`, configuration_files/trajectory_builder_3d.lua:18-113. -/
def builder3DConfig (rad : ℚ → ℚ) : Value Str := .table [
    (.str (plain .min_range), .num 1),
    (.str (plain .max_range), .num 60),
    (.str (plain .num_accumulated_range_data), .num 1),
    (.str (plain .voxel_filter_size), .num (3 / 20)),
    (.str (plain .high_resolution_adaptive_voxel_filter), .table [
      (.str (plain .max_length), .num 2),
      (.str (plain .min_num_points), .num 150),
      (.str (plain .max_range), .num 15)]),
    (.str (plain .low_resolution_adaptive_voxel_filter), .table [
      (.str (plain .max_length), .num 4),
      (.str (plain .min_num_points), .num 200),
      (.str (plain .max_range), .num 60)]),
    (.str (plain .use_online_correlative_scan_matching), .bool false),
    (.str (plain .real_time_correlative_scan_matcher), .table [
      (.str (plain .linear_search_window), .num (3 / 20)),
      (.str (plain .angular_search_window), .num (rad 1)),
      (.str (plain .translation_delta_cost_weight), .num (1 / 10)),
      (.str (plain .rotation_delta_cost_weight), .num (1 / 10))]),
    (.str (plain .ceres_scan_matcher), .table [
      (.str (numbered .occupied_space_weight 0), .num 1),
      (.str (numbered .occupied_space_weight 1), .num 6),
      (.str (numbered .intensity_cost_function_options 0), .table [
        (.str (plain .weight), .num (1 / 2)),
        (.str (plain .huber_scale), .num (3 / 10)),
        (.str (plain .intensity_threshold), .num 40)]),
      (.str (plain .translation_weight), .num 5),
      (.str (plain .rotation_weight), .num 400),
      (.str (plain .only_optimize_yaw), .bool false),
      (.str (plain .ceres_solver_options), .table [
        (.str (plain .use_nonmonotonic_steps), .bool false),
        (.str (plain .max_num_iterations), .num 12),
        (.str (plain .num_threads), .num 1)])]),
    (.str (plain .motion_filter), .table [
      (.str (plain .max_time_seconds), .num (1 / 2)),
      (.str (plain .max_distance_meters), .num (1 / 10)),
      (.str (plain .max_angle_radians), .num (1 / 250))]),
    (.str (plain .rotational_histogram_size), .num 120),
    (.str (plain .imu_gravity_time_constant), .num 10),
    (.str (plain .pose_extrapolator), .table [
      (.str (plain .use_imu_based), .bool false),
      (.str (plain .constant_velocity), .table [
        (.str (plain .imu_gravity_time_constant), .num 10),
        (.str (plain .pose_queue_duration), .num (1 / 1000))]),
      (.str (plain .imu_based), .table [
        (.str (plain .pose_queue_duration), .num 5),
        (.str (plain .gravity_constant), .num (4903 / 500)),
        (.str (plain .pose_translation_weight), .num 1),
        (.str (plain .pose_rotation_weight), .num 1),
        (.str (plain .imu_acceleration_weight), .num 1),
        (.str (plain .imu_rotation_weight), .num 1),
        (.str (plain .odometry_translation_weight), .num 1),
        (.str (plain .odometry_rotation_weight), .num 1),
        (.str (plain .solver_options), .table [
          (.str (plain .use_nonmonotonic_steps), .bool false),
          (.str (plain .max_num_iterations), .num 10),
          (.str (plain .num_threads), .num 1)])])]),
    (.str (plain .submaps), .table [
      (.str (plain .high_resolution), .num (1 / 10)),
      (.str (plain .high_resolution_max_range), .num 20),
      (.str (plain .low_resolution), .num (9 / 20)),
      (.str (plain .num_range_data), .num 160),
      (.str (plain .range_data_inserter), .table [
        (.str (plain .hit_probability), .num (11 / 20)),
        (.str (plain .miss_probability), .num (49 / 100)),
        (.str (plain .num_free_space_voxels), .num 2),
        (.str (plain .intensity_threshold), .num 40)])]),
    (.str (plain .use_intensities), .bool false)]

/-- `TRAJECTORY_BUILDER`, configuration_files/trajectory_builder.lua:18-26. -/
def trajectoryBuilderConfig (rad : ℚ → ℚ) : Value Str := .table [
    (.str (plain .trajectory_builder_2d), builder2DConfig rad),
    (.str (plain .trajectory_builder_3d), builder3DConfig rad),
    (.str (plain .collate_fixed_frame), .bool true),
    (.str (plain .collate_landmarks), .bool false)]

end Verif.Config
