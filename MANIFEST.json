{"claims": [
 {"property": "C01", "status": "proved", "theorems": ["Verif.ThreadPool.work_item_once_after_dependencies", "Verif.ThreadPool.finish_after_start"], "note": "Task/ThreadPool as a transition system, one action per critical section; all executions, any number of client threads and workers. Clients obey: dependency was returned by Schedule, not declared twice, a task is handed over once."},
 {"property": "C02", "status": "proved", "theorems": ["Verif.ThreadPool.shutdown_completes_all", "Verif.ThreadPool.no_check_fails", "Verif.ThreadPool.progress", "Verif.ThreadPool.bounded_steps"], "note": "All executions including schedules after the shutdown request from inside work items; progress plus a bound on the number of steps per request give termination of the destructor."},
 {"property": "C03", "status": "proved", "theorems": ["Verif.OMQ.collated_in_time_order"], "note": "registered sensors fixed before data arrives; late registration aborts (late_registration_aborts)"},
 {"property": "C04", "status": "proved", "theorems": ["Verif.OMQ.collated_no_duplication", "Verif.OMQ.collated_no_loss"], "note": ""},
 {"property": "C05", "status": "proved", "theorems": ["Verif.OMQ.collation_deterministic"], "note": ""},
 {"property": "C06", "status": "proved", "theorems": ["Verif.OMQ.blocker_is_waited_for", "Verif.OMQ.blocker_blocks"], "note": "after at least one Add/finish; before that GetBlocker reads an uninitialised member (getBlocker_uninitialised)"},
 {"property": "C07", "status": "proved", "theorems": ["Verif.BQ.bounded_fifo", "Verif.BQ.failure_changes_nothing", "Verif.BQ.no_mutual_blocking"], "note": "Linearised at the critical sections; all thread counts, capacities, timeouts."},
 {"property": "C08", "status": "proved", "theorems": ["Verif.MapById.ordered_map", "Verif.MapById.find_correct", "Verif.MapById.abort_conditions"], "note": "Trajectory ids below INT_MAX (end() uses it as a sentinel)."},
 {"property": "C09", "status": "partial", "theorems": ["Verif.MapById.appended_id_is_new_partial", "Verif.MapById.appended_id_not_stored", "Verif.MapById.appended_id_reused"], "note": "False as stated: after trimming the last element of a trajectory the map forgets it and hands out index 0 again (appended_id_reused proves this). Proved for trajectories that were never emptied."},
 {"property": "C10", "status": "proved", "theorems": ["Verif.MapById.lower_bound_correct"], "note": "All histories, gaps and times; includes termination of the search."},
 {"property": "C100", "status": "proved", "theorems": ["Verif.Locks.no_deadlock", "Verif.Locks.holder_runs", "Verif.Locks.waiting_holds_nothing", "Verif.Locks.ended_holds_nothing", "Verif.Locks.no_relock", "Verif.Locks.exclusive", "Verif.Locks.dependencies_acyclic", "Verif.Locks.ordered_no_deadlock", "Verif.Locks.ordered_holder_runs", "Verif.Locks.exclusive_reachable"], "note": "Lock programs of all functions; conditions, loops and callbacks are arbitrary. Waiting for conditions (work queue empty, notification) is covered by C32 and C52, not here."},
 {"property": "C101", "status": "proved", "theorems": ["Verif.XRayImage.images", "Verif.XRayImage.order_irrelevant", "Verif.XRayImage.single_voxel_white", "Verif.XRayImage.tallest_full", "Verif.XRayImage.largest_exists", "Verif.XRayImage.uint8_float_uint8", "Verif.XRayImage.on_floor", "Verif.XRayImage.point_colors"], "note": "Real numbers instead of float; cairo drawing of trajectories left out."},
 {"property": "C102", "status": "proved", "theorems": ["Verif.Img.color_round_trip", "Verif.Img.new_image", "Verif.Img.set_get", "Verif.Img.surface_copied", "Verif.Img.rotate_spec", "Verif.Img.rotate_four", "Verif.Img.draw_pictures", "Verif.Img.color_monotone", "Verif.Img.color_ends", "Verif.Img.grey_ambiguous", "Verif.Img.empty_grid", "Verif.Img.grid_image", "Verif.Img.trajectory_drawn", "Verif.Img.hsv_formula", "Verif.Img.palette", "Verif.Img.hsv_full_turn"], "note": "what cairo paints and the PNG format are trusted; float as exact rationals"},
 {"property": "C103", "status": "proved", "theorems": ["Verif.Config.Reader.read_iff", "Verif.Config.read_typed", "Verif.Config.distinct_all", "Verif.Config.complete_all", "Verif.Config.same_names", "Verif.Config.unknown_key_aborts", "Verif.Config.missing_key_aborts", "Verif.Config.part_aborts", "Verif.Config.trajectory_builder_accepted", "Verif.Config.server_accepted", "Verif.Config.map_builder_accepted", "Verif.Config.one_kind", "Verif.Config.default_map_builder_aborts", "Verif.Config.gap_aborts", "Verif.Config.kinds_match", "Verif.Config.ceres_checked", "Verif.Config.correlative_checked", "Verif.Config.normals_checked", "Verif.Config.probabilities_checked", "Verif.Config.counts_checked"], "note": "All 29 functions. Numbers are exact (a float field holds the number itself), and the conversions between strings and numbers are parameters."},
 {"property": "C104", "status": "proved", "theorems": ["Verif.Fp.rndWith_mono", "Verif.Fp.rndWith_exact", "Verif.Fp.rndWith_repr", "Verif.Fp.rnd_nearest", "Verif.Fp.single_rounding", "Verif.FloatProb.encode_total", "Verif.FloatProb.encode_decode", "Verif.FloatProb.decode_spec", "Verif.FloatProb.probability_roundtrip", "Verif.FloatProb.tsd_roundtrip", "Verif.FloatProb.convert_representation", "Verif.FloatProb.odds_update", "Verif.FloatProb.cost_odds_update", "Verif.FloatProb.tables_monotone", "Verif.FloatProb.tables_close", "Verif.FloatProb.update_history", "Verif.FloatProb.hits_saturate", "Verif.FloatProb.nearest_range", "Verif.FloatProb.max_probability_lost", "Verif.FloatProb.bounds_differ", "Verif.FloatProb.unknown_values", "Verif.FloatProb.bare_marker"], "note": "Float arithmetic with a rounding after every operation; any rounding mode, with or without contraction. Overflow and NaN are left out; odds between 2^-40 and 2^40."},
 {"property": "C105", "status": "proved", "theorems": ["Verif.FloatCells.voxel_roundtrip", "Verif.FloatCells.voxel_roundtrip_nearest", "Verif.FloatCells.voxel_near", "Verif.FloatCells.voxel_same", "Verif.FloatCells.voxel_exact", "Verif.FloatCells.raster_roundtrip", "Verif.FloatCells.raster_error", "Verif.FloatCells.raster_drift", "Verif.FloatCells.cell_exact", "Verif.FloatCells.cell_roundtrip", "Verif.FloatCells.cell_index_exact", "Verif.FloatCells.center_in_other_cell", "Verif.FloatCells.raster_range"], "note": "Rounding after every operation; overflow and NaN are left out."},
 {"property": "C106", "status": "proved", "theorems": ["Verif.Races.race_blamed", "Verif.Races.race_free", "Verif.Races.trajectoryData_race", "Verif.Races.loadState_race", "Verif.Races.isTrajectoryFinished_race", "Verif.Races.constraints_race", "Verif.Races.callback_race", "Verif.Races.activeSubmaps_race"], "note": "Races are confined to five members with the function to blame; each of those races is shown to be reachable."},
 {"property": "C107", "status": "proved", "theorems": ["Verif.OptProblem3.solve_aborts_iff", "Verif.OptProblem3.residual_blocks", "Verif.OptProblem3.constants_and_origins", "Verif.OptProblem3.solve_succeeds", "Verif.OptProblem3.solve_aborts", "Verif.OptProblem3.trim_keeps_residuals", "Verif.OptProblem3.inv_exec", "Verif.OptProblem3.young_trajectory_aborts", "Verif.OptProblem3.trimming_aborts", "Verif.OptProblem3.late_measurement_aborts", "Verif.Imu.Measured.unique", "Verif.OptProblem3.solve_without_nodes"], "note": "Rotations and velocities over the reals; what Ceres does with an unknown parameter block is an assumption stated in DESIGN.md."},
 {"property": "C108", "status": "proved", "theorems": ["Verif.LuaText.print_read", "Verif.LuaText.print_order", "Verif.LuaText.reread_error", "Verif.LuaText.reread_exact", "Verif.LuaText.print_stable", "Verif.LuaText.print_read_exact", "Verif.LuaText.print_injective", "Verif.LuaText.small_number_lost", "Verif.LuaText.degree_changes", "Verif.LuaText.key_not_a_name", "Verif.LuaText.key_reserved", "Verif.LuaText.nan_lost", "Verif.LuaText.entries_not_printed", "Verif.LuaText.no_text"], "note": "the reader is a specification of the part of Lua that the texts use; what is lost is stated with witnesses"},
 {"property": "C109", "status": "proved", "theorems": ["Verif.SavedGraph.saved_and_loaded", "Verif.SavedGraph.same_problem", "Verif.SavedGraph.reload_stable", "Verif.SavedGraph.load_iff", "Verif.SavedGraph.align_cancel", "Verif.SavedGraph.cost_same", "Verif.SavedGraph.shown_optimize", "Verif.SavedGraph.shown_trim", "Verif.SavedGraph.angle_wrapped"], "note": "Real arithmetic; work items done; solver, new submap places and extrapolated poses arbitrary; identifiers unchanged by loading."},
 {"property": "C11", "status": "proved", "theorems": ["Verif.MapByTime.trim_keeps_neighbours", "Verif.MapByTime.trim_removes_gap"], "note": "Node times strictly increasing within the trajectory and different from Time::min/max; other histories of the sensor data map arbitrary."},
 {"property": "C110", "status": "proved", "theorems": ["Verif.Machine.ray_no_overflow", "Verif.Machine.machine_ray_exact", "Verif.Machine.growStep_iff", "Verif.Machine.grown_limits", "Verif.Machine.grow_iff", "Verif.Machine.rays_in_grown_grid", "Verif.Machine.wrap_far", "Verif.Machine.compiled_exact", "Verif.Machine.scale_one_overflows", "Verif.Machine.scale_large_overflows"], "note": "RayToPixelMask, GetCellIndex and GrowLimits with every int and int64 result range-checked: rays are exact for scales from 2 to below 2^30; a submap can grow exactly to points less than 12800 cells away; everything computed for rays in a reachable grid fits. 3D grids and precomputation grids are not treated with machine integers."},
 {"property": "C111", "status": "proved", "theorems": ["Verif.Includes.fullPath_iff", "Verif.Includes.fullPath_aborts", "Verif.Includes.content_iff", "Verif.Includes.run_iff", "Verif.Includes.load_iff", "Verif.Includes.exec_files", "Verif.Includes.reading_ends", "Verif.Includes.same_name", "Verif.Includes.two_names", "Verif.Includes.main_again", "Verif.Includes.endless_inclusion"], "note": "Scripts are finite trees of their interactions; the file system does not change while reading. Beyond the statement, the witnesses show what the check for double inclusion does not see."},
 {"property": "C112", "status": "proved", "theorems": ["Verif.SavedSensors.wf_run", "Verif.SavedSensors.wf_load", "Verif.SavedSensors.load_saved", "Verif.SavedSensors.load_frozen", "Verif.SavedSensors.load_needs", "Verif.SavedSensors.same_file", "Verif.SavedSensors.landmark_gets_frozen", "Verif.SavedSensors.lost_in_2d"], "note": "For new ids that are different, not negative and unused (as AddTrajectoryForDeserialization gives them out), and an empty work queue at the time of saving. The conversions of times and poses to protos are the identity here (C45, C109)."},
 {"property": "C113", "status": "proved", "theorems": ["Verif.FloatLoops.both_iff", "Verif.FloatLoops.both_range", "Verif.FloatLoops.normalize_ends_iff", "Verif.FloatLoops.normalize_range", "Verif.FloatLoops.normalize_exact", "Verif.FloatLoops.normalize_error", "Verif.FloatLoops.half_turn_ends_iff", "Verif.FloatLoops.half_turn_range", "Verif.FloatLoops.fixedWidth_sorted", "Verif.FloatLoops.fixedWidth_head", "Verif.FloatLoops.powers_end", "Verif.FloatLoops.powers_increase", "Verif.FloatLoops.powers_of_two", "Verif.FloatLoops.powers_run_forever", "Verif.FloatLoops.binary_ends", "Verif.FloatLoops.adaptive_ends", "Verif.FloatLoops.binary_runs_forever"], "note": "Numbers are rational, operations are rounded to nearest even; no infinities or NaN. The limits are exact; the failures for subnormal numbers are proved as witnesses."},
 {"property": "C114", "status": "proved", "theorems": ["Verif.FloatMatch.precomputed_is_window_maximum", "Verif.FloatMatch.match_optimal", "Verif.FloatMatch.score_error", "Verif.FloatMatch.match_near_optimal", "Verif.FloatMatch.match_found", "Verif.FloatMatch.probabilityGrid_ok", "Verif.FloatMatch.voxelValue_spec", "Verif.FloatMatch.match3_optimal", "Verif.FloatMatch.score3_error", "Verif.FloatMatch.rounding_changes_a_voxel", "Verif.FloatMatch.narrow_range_fails"], "note": "The bounds of costs are assumed at least 1/8 apart and between -1 and 2 (all probability grids, truncation distances from 1/16 to 1); overflow to infinity is left out; the low resolution score in 3D is arbitrary."},
 {"property": "C115", "status": "proved", "theorems": ["Verif.LateTrajectories.late_ok", "Verif.LateTrajectories.late_aborts_iff", "Verif.LateTrajectories.delivered_received", "Verif.LateTrajectories.newer_ok", "Verif.LateTrajectories.late_same"], "note": "All interleavings with increasing ids; the exact condition under which the common collator aborts, and that the collator by trajectory never does."},
 {"property": "C116", "status": "proved", "theorems": ["Verif.MapBuilder.ids_in_order", "Verif.MapBuilder.add_id", "Verif.MapBuilder.graph_ids", "Verif.MapBuilder.save_ok", "Verif.MapBuilder.load_fresh", "Verif.MapBuilder.coll_trace", "Verif.MapBuilder.careful_ok", "Verif.MapBuilder.careful_current", "Verif.MapBuilder.careful_exec", "Verif.MapBuilder.unknown_finish"], "note": "saving and loading assume that the user names existing trajectories; unknown_finish is the witness that this is needed"},
 {"property": "C117", "status": "proved", "theorems": ["Verif.PoseGraph.exec3D_iff", "Verif.PoseGraph.Exec3D.exec", "Verif.PoseGraph.no_dangling_constraints_3d", "Verif.PoseGraph.local_slam_3d", "Verif.PoseGraph.local_slam_never_aborts_3d", "Verif.PoseGraph.local_slam_complete_3d", "Verif.PoseGraph.race_3d"], "note": "race_3d is the witness that the extra lookups can fail when loading and finishing race"},
 {"property": "C118", "status": "proved", "theorems": ["Verif.Loading.load_while_running", "Verif.Loading.call_ok", "Verif.Loading.item_ok", "Verif.Loading.loaded", "Verif.Loading.loaded_stays", "Verif.Loading.file_calls", "Verif.Loading.builder_fresh", "Verif.Loading.saved_sound", "Verif.Loading.overlapping_other", "Verif.Loading.ex_interleaved", "Verif.Loading.exFile_sound", "Verif.Loading.ex_builder"], "note": "saved_sound takes as hypothesis that the saved pose graph has at most one constraint within a submap per node and submap"},
 {"property": "C119", "status": "proved", "theorems": ["Verif.Localize.never_aborts", "Verif.Localize.load_never_aborts", "Verif.Localize.map_unchanged", "Verif.Localize.newest_left", "Verif.Localize.quiet_left", "Verif.Localize.trimmed", "Verif.Localize.good_files"], "note": "Ghost simulation on top of C56 and C118. No overlapping-submaps trimmer and no DeleteTrajectory in these executions."},
 {"property": "C12", "status": "partial", "theorems": ["Verif.Prob.quantisation", "Verif.Prob.tables_agree", "Verif.Prob.convert_roundtrip_partial", "Verif.Prob.bare_marker_not_preserved"], "note": "Exact rational arithmetic instead of float (C104 has rounding). Everything proved except one 16 bit value: the bare update marker 32768 (unknown and marked) is not preserved by the representation change (the code tests > instead of >=), proved by bare_marker_not_preserved; no table entry has this value (Verif.Prob.table_range)."},
 {"property": "C120", "status": "proved", "theorems": ["Verif.SubmapLinks.linked", "Verif.SubmapLinks.at_most_one", "Verif.SubmapLinks.one_for_each", "Verif.SubmapLinks.no_orphans", "Verif.SubmapLinks.not_both", "Verif.SubmapLinks.constraints_left", "Verif.SubmapLinks.builder_linked", "Verif.SubmapLinks.saved_loads"], "note": "Invariant over all executions of the pose graph and of the map builder; discharges the hypothesis of saved_sound (C118)."},
 {"property": "C121", "status": "proved", "theorems": ["Verif.PbstreamInfo.run_iff", "Verif.PbstreamInfo.counts_exact", "Verif.PbstreamInfo.saved_report", "Verif.PbstreamInfo.lines_agree", "Verif.PbstreamInfo.cut_off", "Verif.PbstreamInfo.unknown_undefined"], "note": "exact condition for a report, exact counts, saved files, files cut off at any byte; an unknown record is undefined behavior, as the statement says"},
 {"property": "C122", "status": "proved", "theorems": ["Verif.RelationsText.number", "Verif.RelationsText.reads", "Verif.RelationsText.garbage_aborts", "Verif.RelationsText.no_file", "Verif.RelationsText.times", "Verif.RelationsText.rotation_of", "Verif.RelationsText.yaw_of", "Verif.RelationsText.white_space", "Verif.RelationsText.second_point"], "note": "all texts of numbers; rounding exact, trigonometric functions real"},
 {"property": "C123", "status": "proved", "theorems": ["Verif.Colors.palette", "Verif.Colors.converted", "Verif.Colors.exact", "Verif.Colors.contrast", "Verif.Colors.distinct", "Verif.Colors.distinct_bytes", "Verif.Colors.no_contrast", "Verif.Colors.one_color", "Verif.Colors.byte_near", "Verif.Colors.byte_mono", "Verif.Colors.byte_roundtrip", "Verif.Colors.bytes_roundtrip"], "note": "Single precision to nearest, fused or not; no infinities and NaN."},
 {"property": "C124", "status": "proved", "theorems": ["Verif.Intensities.run_intensities", "Verif.Intensities.match_defined", "Verif.Intensities.values_measured", "Verif.Intensities.mean_range", "Verif.Intensities.run_range", "Verif.Intensities.run_without_intensities", "Verif.Intensities.unobserved_counts_as_zero", "Verif.Intensities.transform_pairs", "Verif.Intensities.crop_pairs", "Verif.Intensities.push_back_breaks"], "note": "For all sequences of scans nothing aborts, inserted points keep their intensities, voxels of active submaps have the mean of what was measured in them, and all residuals of scan matching are defined. Assumed: allowed options, scans within the grids, rational arithmetic."},
 {"property": "C125", "status": "proved", "theorems": ["Verif.GroundTruthOfMap.representatives_of_map", "Verif.GroundTruthOfMap.map_generates", "Verif.GroundTruthOfMap.relations_of_map", "Verif.GroundTruthOfMap.second_trajectory_aborts", "Verif.GroundTruthOfMap.trimmed_aborts", "Verif.GroundTruthOfMap.toProto_loops", "Verif.GroundTruthOfMap.removed_aborts", "Verif.GroundTruthOfMap.relations_shifted"], "note": "Poses, times and which submap objects are finished are given. removed_aborts and relations_shifted are about all executions of the pose graph, with any trimmers; the others about one trajectory without trimming, or any state (trimmed_aborts)."},
 {"property": "C126", "status": "proved", "theorems": ["Verif.MapSlices.fills_iff", "Verif.MapSlices.slices_exact", "Verif.MapSlices.saved_fills", "Verif.MapSlices.torn_iff", "Verif.MapSlices.torn_exact", "Verif.MapSlices.torn_aborts", "Verif.MapSlices.finished_meanwhile_aborts", "Verif.MapSlices.load_names", "Verif.MapSlices.torn_loads", "Verif.MapSlices.late_node_unloadable", "Verif.MapSlices.load_iff", "Verif.MapSlices.deleted_meanwhile_aborts", "Verif.MapSlices.serialized_iff", "Verif.MapSlices.saved_cells_painted", "Verif.MapSlices.known_distance_painted", "Verif.MapSlices.saved_distances_painted", "Verif.MapSlices.stored_cells_painted"], "note": "When slices can be made of a file and which; saved maps always can, torn ones exactly if no submap record lacks a pose; two witnesses of torn files, which cannot be loaded either."},
 {"property": "C13", "status": "proved", "theorems": ["Verif.Prob.odds_update", "Verif.Prob.cost_odds_update", "Verif.Prob.table_range", "Verif.Prob.update_history"], "note": "Exact rational arithmetic instead of float; C104 has the same with rounding."},
 {"property": "C14", "status": "proved", "theorems": ["Verif.Grid2D.once_per_scan", "Verif.Grid2D.costTable_ok", "Verif.Grid2D.apply_spec", "Verif.Grid2D.reach_wf", "Verif.Hybrid.once_per_scan_3d"], "note": "2D probability grid; the well-formedness hypothesis is proved for every reachable grid (reach_wf)."},
 {"property": "C15", "status": "proved", "theorems": ["Verif.Grid2D.grow_preserves", "Verif.Grid2D.grow_pending_aborts", "Verif.Grid2D.reach_wf"], "note": "Exact arithmetic and unbounded int; the loop is a function of an iteration bound and the theorem gives a bound after which the result is stable. A point lying exactly on the outer border of the old map was outside of it and may be assigned to a border cell after growth; all points strictly beyond the border are unknown."},
 {"property": "C16", "status": "proved", "theorems": ["Verif.Grid2D.center_to_cell", "Verif.Grid2D.near_center_to_cell", "Verif.Grid2D.cell_near_center", "Verif.Grid2D.contains_iff"], "note": "'Within half a cell' is strict; ties on cell edges are characterised by round_zero_iff, round_nonneg_iff, round_neg_iff. Contained = strictly inside the rectangle."},
 {"property": "C17", "status": "proved", "theorems": ["Verif.Grid2D.proto_roundtrip", "Verif.Grid2D.proto_pending_aborts", "Verif.Grid2D.crop_preserves", "Verif.Grid2D.xyVisit_spec", "Verif.Grid2D.reach_wf"], "note": "Probability grids; grids with pending updates abort (serialization) and are excluded for cropping. Exact arithmetic."},
 {"property": "C18", "status": "proved", "theorems": ["Verif.Hybrid.grid_is_map", "Verif.Hybrid.grow_look"], "note": "Total map semantics for any layered grid; instantiated with the 64^3 blocks of GridBase; indices -8192..8191 never abort, others always do."},
 {"property": "C19", "status": "proved", "theorems": ["Verif.Hybrid.iteration_exact", "Verif.Hybrid.proto_roundtrip_3d", "Verif.Hybrid.reach3_wf", "Verif.Hybrid.proto_pending_aborts_3d"], "note": "Iterator exactness for every value type; serialization round trip for HybridGrid without pending updates (serializing with pending updates aborts)."},
 {"property": "C20", "status": "proved", "theorems": ["Verif.Ray.ray_mask_exact", "Verif.Ray.ray_mask_negative"], "note": "Coordinates are unbounded integers (no int overflow). Meets is the open pixel square against the segment of sub-pixel centres over the rationals; the exact corner passes are the diagonal steps. Negative coordinates fail a CHECK."},
 {"property": "C21", "status": "proved", "theorems": ["Verif.Insert2D.insert_hits_over_misses", "Verif.Insert2D.insert_order_irrelevant", "Verif.Insert3D.insert_hits_over_misses_3d", "Verif.Insert3D.insert_order_irrelevant_3d", "Verif.Insert3D.sampled_ne_hit"], "note": "Probability grids and hybrid grids with the intensity grid; exact rational arithmetic. In 3D the crossed voxels are the sampled ones (the code samples, it does not trace), and the points have to lie in the supported voxel range."},
 {"property": "C22", "status": "proved", "theorems": ["Verif.ActiveSubmaps.active_submaps_exact", "Verif.ActiveSubmaps.active_submaps_lifecycle"], "note": ""},
 {"property": "C23", "status": "proved", "theorems": ["Verif.Conn.connectivity_closure"], "note": "for all sequences of additions, connections and queries (which compress paths)"},
 {"property": "C24", "status": "partial", "theorems": ["Verif.Conn.last_connection_time_partial", "Verif.Conn.connect_untracked_aborts"], "note": "the documented behaviour for untracked trajectories is false: Connect aborts (proved); proved for tracked trajectories and arbitrary times"},
 {"property": "C25", "status": "proved", "theorems": ["Verif.Compressed.compression_roundtrip", "Verif.Compressed.compression_aborts", "Verif.Compressed.bounds_check_insufficient"], "note": "Exact arithmetic. Also: clouds outside the supported range abort, and the bounds check on the unrounded value admits coordinates whose rounded value leaves the block grid (abort instead of corruption)."},
 {"property": "C26", "status": "partial", "theorems": ["Verif.Voxel.voxel_filter_partial", "Verif.Voxel.voxel_filter_cloud_partial", "Verif.Voxel.voxel_collision"], "note": "One point per key is proved for every cloud; one point per voxel only if the voxel indices fit 21 bits (distinct voxels then have distinct keys). voxel_collision proves that the full statement fails: two distinct voxels can share a 64 bit key."},
 {"property": "C27", "status": "partial", "theorems": ["Verif.RangeCollator.scans_conserve_points_partial", "Verif.RangeCollator.run_total", "Verif.RangeCollator.nothing_dropped", "Verif.RangeCollator.per_sensor_order_is_not_enough", "Verif.RangeCollator.message_lost"], "note": "Proved for messages in global time order (what the collator delivers) with point times sorted and not after the message time. With only per-sensor order the scan time goes backwards and scans overlap (per_sensor_order_is_not_enough); with a point after its message time the next message is lost (message_lost)."},
 {"property": "C28", "status": "partial", "theorems": ["Verif.ProtoStream.finished_reads_back", "Verif.ProtoStream.truncated_reads_prefix_partial", "Verif.ProtoStream.cut_in_magic_aborts", "Verif.ProtoStream.opened_iff_magic", "Verif.ProtoStream.truncation_looks_complete", "Verif.ProtoStream.no_truncation_test"], "note": "Round trip proved, a truncated stream yields a prefix of the messages or aborts within the magic number; a file is opened exactly if it starts with the magic bytes. The last clause, that truncation can be told apart, is false in the code: truncation_looks_complete and no_truncation_test give the witnesses. Compression is an assumed lawful codec."},
 {"property": "C29", "status": "partial", "theorems": ["Verif.Serialization.save_iff", "Verif.Serialization.load_saved_iff", "Verif.Serialization.saved_loads_partial", "Verif.Serialization.loaded_content", "Verif.Serialization.loaded_options", "Verif.Serialization.empty_trajectory_unloadable", "Verif.Serialization.deleted_landmarks_unloadable", "Verif.Serialization.options_mixed_up"], "note": "Exactly when saving and loading succeed, for every reachable pose graph, and what is loaded. The unconditional claim is false: a trajectory without submaps and nodes, or data kept of a deleted trajectory, make the saved file unloadable (witnesses). The state is assumed not to change while it is saved."},
 {"property": "C30", "status": "proved", "theorems": ["Verif.Sampler.sampler_ratio", "Verif.Sampler.sampler_constructible", "Verif.Sampler.sampler_extremes"], "note": "ratio as exact rational"},
 {"property": "C31", "status": "proved", "theorems": ["Verif.MotionFilter.motion_filter_correct", "Verif.MotionFilter.motion_filter_consequences"], "note": ""},
 {"property": "C32", "status": "proved", "theorems": ["Verif.WorkQueue.work_items_serial", "Verif.WorkQueue.no_lost_wakeup", "Verif.WorkQueue.work_items_complete", "Verif.WorkQueue.wait_sees_settled", "Verif.WorkQueue.wait_race_aborts"], "note": "Order, exactly-once and exclusion for every execution. Progress for executions in which nobody adds work between the empty queue seen by WaitForAllComputations and its return; wait_race_aborts proves that without this the CHECK in WhenDone can fail. Thread pool and constraint builder are abstracted by their guarantees."},
 {"property": "C33", "status": "partial", "theorems": ["Verif.PoseGraph.trajectory_states_partial", "Verif.PoseGraph.trajectory_states_disciplined", "Verif.PoseGraph.trajectory_states_history", "Verif.PoseGraph.deleted_is_final", "Verif.PoseGraph.never_active_again", "Verif.PoseGraph.data_accepted_iff", "Verif.PoseGraph.nodes_accepted", "Verif.PoseGraph.deleted_becomes_finished", "Verif.PoseGraph.deleted_becomes_frozen", "Verif.PoseGraph.frozen_becomes_finished", "Verif.PoseGraph.finished_becomes_frozen", "Verif.PoseGraph.frozen_takes_data", "Verif.PoseGraph.queued_data_aborts_after_delete", "Verif.PoseGraph.delete_active_aborts", "Verif.PoseGraph.delete_twice_aborts", "Verif.PoseGraph.delete_pure_localization_aborts"], "note": "The property as stated is false for the code: FinishTrajectory and FreezeTrajectory check only that the trajectory is not already finished (frozen), so a deleted trajectory becomes finished or frozen, and frozen trajectories accept data; execution witnesses are proved. Proved for all executions: nothing becomes active again, nothing is deleted without having been finished or frozen, data is accepted exactly while active or frozen and not scheduled for deletion. Proved for all executions in which finish and freeze only run for active or unknown trajectories: exactly the transitions of the property, deleted is final."},
 {"property": "C34", "status": "proved", "theorems": ["Verif.PoseGraph.trim_submap_exact", "Verif.PoseGraph.trim_submap_completes", "Verif.PoseGraph.trim_submap_matchers", "Verif.PoseGraph.no_dangling_constraints", "Verif.PoseGraph.no_dangling_nodes"], "note": "no_dangling_nodes is for executions in which AddNodeToSubmap items refer to existing nodes when they run (the code does not check this)."},
 {"property": "C35", "status": "proved", "theorems": ["Verif.PoseGraph.pure_localization_keeps_newest", "Verif.PoseGraph.pure_localization_removes_all", "Verif.PoseGraph.pure_localization_bound"], "note": ""},
 {"property": "C36", "status": "partial", "theorems": ["Verif.Overlap.select_iff_partial", "Verif.Overlap.select_iff", "Verif.Overlap.select_subset", "Verif.Overlap.freshness_spec", "Verif.Overlap.mem_find", "Verif.Overlap.large_submap_removed", "Verif.Overlap.zero_minimum_removes", "Verif.Overlap.double_cell_displaces", "Verif.Overlap.trim_none_iff", "Verif.Overlap.trim_removed", "Verif.Overlap.trim_empty_undefined", "Verif.Overlap.trim_next"], "note": "False as stated: the 16-bit counter wraps around, a minimum of zero still removes, and several cells of one submap may displace another. Proved under conditions that exclude these. The geometry of the cells is left out."},
 {"property": "C37", "status": "proved", "theorems": ["Verif.FastCorrelative.precompute_completes", "Verif.FastCorrelative.precomputed_is_window_maximum", "Verif.FastCorrelative.coarse_bounds_fine", "Verif.FastCorrelative.slide_spec"], "note": "Grid costs within their bounds (as the grid classes guarantee), values rational instead of float, positions and sizes for which no int overflows."},
 {"property": "C38", "status": "proved", "theorems": ["Verif.FastCorrelative.search_optimal", "Verif.FastCorrelative.match_optimal"], "note": "For every monotone score function (this includes the float rounding) and every order std::sort may leave equal scores in; for the window before ShrinkToFit. Sizes up to 2^28 so that no int overflows. An empty scan gives 0/0 in the code; NaN scores are outside of the model."},
 {"property": "C39", "status": "proved", "theorems": ["Verif.Rigid.apply2_mul", "Verif.Rigid.mul2_assoc", "Verif.Rigid.mul2_identity", "Verif.Rigid.mul2_inverse", "Verif.Rigid.apply2_dist", "Verif.Rigid.apply3_mul", "Verif.Rigid.mul3_assoc", "Verif.Rigid.mul3_identity", "Verif.Rigid.mul3_inverse", "Verif.Rigid.apply3_dist", "Verif.Rigid.rotate_cross", "Verif.Rigid.proper_mul", "Verif.Rigid.proper_inverse", "Verif.Rigid.embed3D_mul", "Verif.Rigid.embed3D_inverse", "Verif.Rigid.embed3D_apply", "Verif.Rigid.project2D_embed3D", "Verif.Rigid.angle_axis_roundtrip", "Verif.Rigid.inverse_needs_unit"], "note": "Over the reals, for rotations of norm one (preserved by all operations). inverse_needs_unit shows the condition is needed although IsValid accepts more."},
 {"property": "C40", "status": "proved", "theorems": ["Verif.InterpolationBuffer.buffer_newest", "Verif.InterpolationBuffer.buffer_keeps", "Verif.InterpolationBuffer.push_none_iff", "Verif.InterpolationBuffer.lookup_spec", "Verif.InterpolationBuffer.lookup_iff", "Verif.InterpolationBuffer.slerp_unit"], "note": "Over the reals. For equal times the first of the stored transforms is returned."},
 {"property": "C41", "status": "partial", "theorems": ["Verif.Extrapolator.extrapolate_newest_partial", "Verif.Extrapolator.extrapolate_stale", "Verif.Extrapolator.extrapolate_newest_false", "Verif.Extrapolator.extrapolate_total_partial", "Verif.Extrapolator.extrapolate_last", "Verif.Extrapolator.observe_error_iff", "Verif.Extrapolator.addPose_total", "Verif.Extrapolator.addImu_error_iff", "Verif.Extrapolator.addOdometry_total", "Verif.Extrapolator.free_fall_aborts", "Verif.Extrapolator.unordered_imu_aborts"], "note": "False as stated: the cached pose of an earlier extrapolation to the same time is returned (extrapolate_newest_false). Proved with that condition, and that only the CHECKs on the gravity direction can fail. Over the reals, for IMU data in order and an exact FromTwoVectors."},
 {"property": "C42", "status": "partial", "theorems": ["Verif.Builder.callback_after_searches", "Verif.Builder.results_exact", "Verif.Builder.constraint_builder_partial", "Verif.Builder.unnotified_search_lost", "Verif.PoseGraphScheduling.pose_graph_refines"], "note": "callback_after_searches and results_exact hold for every execution up to a failure; constraint_builder_partial shows there is no failure for callers which notify the end of each node before WhenDone and start no searches while a callback is pending; the pose graph is such a caller (pose_graph_refines). Missing: for arbitrary callers the statement is false (unnotified_search_lost)."},
 {"property": "C43", "status": "partial", "theorems": ["Verif.Lua.life_iff", "Verif.Lua.read_once_partial", "Verif.Lua.unused_aborts", "Verif.Lua.double_use_aborts", "Verif.Lua.missing_aborts", "Verif.Lua.hasKey_free", "Verif.Lua.order_free", "Verif.Lua.nested_read_once", "Verif.Lua.numeric_key_unchecked", "Verif.Lua.other_key_undefined", "Verif.Lua.arrayValues_spec"], "note": "Exact condition for a dictionary to be used and destroyed without an abort, including nested dictionaries and arrays of dictionaries. The statement as given is false for string keys that are the text of a number, which are never checked (numeric_key_unchecked); everything else is proved."},
 {"property": "C44", "status": "proved", "theorems": ["Verif.PoseGraph.proto_exact", "Verif.PoseGraph.proto_self_contained", "Verif.PoseGraph.proto_excludes_unfinished", "Verif.PoseGraph.proto_torn"], "note": "For all reachable pose graphs that do not change while they are serialized. ToProto takes the lock three times; proto_torn shows a dangling constraint when a trajectory is added in between."},
 {"property": "C45", "status": "partial", "theorems": ["Verif.Ticks.universal_inverse", "Verif.Ticks.universal_order", "Verif.Ticks.universal_difference", "Verif.Ticks.difference_overflow", "Verif.Ticks.plus_minus", "Verif.Ticks.fromMilliseconds_exact", "Verif.Ticks.fromSeconds_error_partial", "Verif.Ticks.fromSeconds_error_long", "Verif.Ticks.fromSeconds_error_one", "Verif.Ticks.fromSeconds_defined", "Verif.Ticks.toSeconds_error", "Verif.Ticks.roundtrip_error", "Verif.Ticks.fromSeconds_inexact", "Verif.Ticks.roundtrip_lossy"], "note": "Everything is proved with doubles rounded to 53 bits, except that seconds of 2^54 ticks (57 years) and more are converted with a larger error, for which a witness is proved (fromSeconds_inexact) together with the exact bound."},
 {"property": "C46", "status": "partial", "theorems": ["Verif.Uploader.uploaded_batches", "Verif.Uploader.batch_size", "Verif.Uploader.ids_translated", "Verif.Uploader.ids_current", "Verif.Uploader.uploaded_order_partial", "Verif.Uploader.nothing_lost", "Verif.Uploader.untranslated_discards", "Verif.Uploader.batch_lost", "Verif.Uploader.queue_lost", "Verif.Uploader.accepted_twice"], "note": "Order, batch size and translation are proved for all executions, with arbitrary failures. The order needs that no accepted batch is sent again, otherwise it is accepted twice (accepted_twice). That nothing is lost on shutdown is false (batch_lost, queue_lost); nothing_lost says exactly what may be lost."},
 {"property": "C47", "status": "partial", "theorems": ["Verif.Histo.rows_printed", "Verif.Histo.row_count", "Verif.Histo.counted_at_least_once", "Verif.Histo.counted_once_ascending", "Verif.Histo.counted_once_rounded", "Verif.Histo.counted_once_partial", "Verif.Histo.counted_once_float", "Verif.Histo.counted_twice", "Verif.Histo.counted_twice_ten"], "note": "Proved in exact arithmetic, and for float arithmetic when two values are further apart than a small multiple of the rounding error. For float values close to each other the statement is false: a value is counted twice (counted_twice); at least once is proved for any rounding. NaN, infinities and overflow are left out."},
 {"property": "C48", "status": "partial", "theorems": ["Verif.Tsdf.insert_spec_partial", "Verif.Tsdf.blend", "Verif.Tsdf.reading_range", "Verif.Tsdf.insert_aborts", "Verif.Tsdf.small_weight_forgotten", "Verif.Tsdf.create_spec"], "note": "For scans whose hits have the height of the origin: insertion never aborts, the map only grows, every crossed cell is blended with the first observation (weighted mean up to half a quantisation step, between old distance and represented observation, weight never decreases), all other cells are unchanged, distances stay within the truncation band and weights within the maximum. False for other scans: GrowAsNeeded uses the norm in space but InsertHit the norm in the plane, so the end of a ray can leave the grown map and a CHECK fails (insert_aborts). Norms, kernels, normals and std::sort are arguments; arithmetic is exact."},
 {"property": "C49", "status": "proved", "theorems": ["Verif.Fast3D.stack_window", "Verif.Fast3D.coarse_bounds_fine", "Verif.Fast3D.coarse_attained", "Verif.Fast3D.stackFrom_total", "Verif.Fast3D.stack_bounds_map", "Verif.Fast3D.convert_spec", "Verif.Fast3D.cellValue_spec", "Verif.Fast3D.cellValue_mono", "Verif.Fast3D.stack_aborts_at_border"], "note": "Exact window maximum at every depth for all grids whenever the stack is computed; it is computed if all voxels are at least 2^(depth-1)-1 above index -8192, and aborts for a voxel at -8192 with two full resolution depths. Probabilities are exact rationals."},
 {"property": "C50", "status": "partial", "theorems": ["Verif.Controller.update_refines", "Verif.Controller.created_iff", "Verif.Controller.unannounced_ignored", "Verif.Controller.same_object", "Verif.Controller.finished_forgotten_partial", "Verif.Controller.finished_grid", "Verif.Controller.update_none_iff", "Verif.Controller.finished_first_remembered", "Verif.Controller.finished_incomplete"], "note": "Every message is proved to have the specified effect on exactly the submap it is about, for all reachable controllers. False in two corners, both with a proved witness: a submap finished by its first message is not forgotten, and a finishing message without a grid hands out an incomplete submap."},
 {"property": "C51", "status": "proved", "theorems": ["Verif.Voxel.adaptive_voxel_filter", "Verif.Voxel.adaptive_gives_too_few"], "note": "adaptive_gives_too_few: the source comment promises the full cloud when no length suffices; the code returns the last filtered cloud."},
 {"property": "C52", "status": "proved", "theorems": ["Verif.PoseGraphScheduling.pose_graph_safe", "Verif.PoseGraphScheduling.pose_graph_refines", "Verif.PoseGraphScheduling.wait_for_all", "Verif.PoseGraphScheduling.pose_graph_completes", "Verif.PoseGraphScheduling.wait_race_loses_search"], "note": "The hypothesis that nobody adds work while waiting is necessary: wait_race_loses_search gives an execution without it in which a search writes into a removed element."},
 {"property": "C53", "status": "proved", "theorems": ["Verif.Fast3D.search_optimal", "Verif.Fast3D.match_optimal", "Verif.Fast3D.coarse_score", "Verif.Fast3D.scoreAt_eq", "Verif.Fast3D.generateLowest_eq"], "note": "Starts from the full resolution cell indices of the scans; scores in any linear order with a least element, monotone in the sum of cell values."},
 {"property": "C54", "status": "partial", "theorems": ["Verif.SlamUpload.replicated_partial", "Verif.SlamUpload.single_undisturbed", "Verif.SlamUpload.faithful2d", "Verif.SlamUpload.faithful3d", "Verif.SlamUpload.shared_index_mixes_up", "Verif.SlamUpload.shared_index_aborts", "Verif.SlamUpload.null_submap_aborts"], "note": "Proved for every trajectory during which no other trajectory finishes a submap (in particular for a single trajectory), and for 2D that nothing aborts for any interleaving. False for overlapping trajectories because the submap index is shared: the content of one submap ends up in another (shared_index_mixes_up), the receiving pose graph aborts (shared_index_aborts) and in 3D a null pointer is dereferenced (null_submap_aborts)."},
 {"property": "C55", "status": "proved", "theorems": ["Verif.Extrapolator.extrapolate_constant_velocity", "Verif.Extrapolator.trimPoses_head"], "note": "Over the reals. The translation only; rotations come from the IMU tracker."},
 {"property": "C56", "status": "proved", "theorems": ["Verif.PoseGraph.local_slam_never_aborts", "Verif.PoseGraph.local_slam_complete", "Verif.PoseGraph.active_window", "Verif.PoseGraph.expected_window"], "note": "For all executions of the pose graph model in which the callers behave as trajectory builders (Orderly): no deletion, freezing, loading or trimming, and one call at a time per trajectory. active_window and expected_window tie the assumed AddNode arguments to the models of ActiveSubmaps and of the uplink server."},
 {"property": "C57", "status": "proved", "theorems": ["Verif.PoseGraph.searched_once", "Verif.PoseGraph.searched_sound", "Verif.PoseGraph.searched_exactly", "Verif.PoseGraph.full_submap_searched", "Verif.PoseGraph.submap_finished_by_call_not_searched", "Verif.PoseGraph.earlier_node_never_searched"], "note": "The set of searched pairs is characterised exactly. The last two theorems state the gap: older nodes are never compared with submaps finished by FinishTrajectory (pose_graph_2d.cc:635-646 contains no such search). The distance and sampling filters inside ConstraintBuilder come after the requests counted here."},
 {"property": "C58", "status": "partial", "theorems": ["Verif.GlobalPoses.unoptimized_aligned_partial", "Verif.GlobalPoses.processed_node_relative", "Verif.GlobalPoses.new_submap_relative", "Verif.GlobalPoses.race", "Verif.GlobalPoses.initial_pose_misplaces", "Verif.GlobalPoses.local_to_global_of_submap"], "note": "Proved for trajectories without an initial pose and when no optimization finishes between the two critical sections of AddNode; both conditions are needed (witnesses). Also: nodes and submaps enter the optimization problem where local SLAM put them relative to the previous submap. Transforms are exact; deletion and trimming are not in this model."},
 {"property": "C59", "status": "partial", "theorems": ["Verif.GlobalPoses.frozen_nodes_fixed_partial", "Verif.GlobalPoses.frozen_submaps_fixed_partial", "Verif.GlobalPoses.first_submap_fixed", "Verif.GlobalPoses.moved_while_loading"], "note": "Proved when no optimization runs while parts of the trajectory wait in the queue (needed, witness) and for loaded poses that are planar up to gravity alignment; the solver is assumed to keep constant parameter blocks."},
 {"property": "C60", "status": "proved", "theorems": ["Verif.OptProblem.residual_blocks", "Verif.OptProblem.constants_and_origins", "Verif.OptProblem.interpolateOdometry_iff", "Verif.OptProblem.interpolateFixedFrame_iff", "Verif.OptProblem.odometry_chain", "Verif.OptProblem.solve_succeeds", "Verif.OptProblem.landmark_without_nodes", "Verif.OptProblem.landmark_only_node", "Verif.OptProblem.landmark_before_first_node_aborts", "Verif.OptProblem.landmark_connects_trajectories"], "note": "Landmark observations of trajectories without nodes and at the only node are excluded by the property; what happens then is proved separately."},
 {"property": "C61", "status": "partial", "theorems": ["Verif.OptProblem.trim_keeps_residuals_partial", "Verif.OptProblem.trim_loses_fixed_frame"], "note": "Fixed frame residuals are kept if all readings of the trajectory have a pose; otherwise the property is false (witness)."},
 {"property": "C62", "status": "partial", "theorems": ["Verif.Server.subscriber_receives_partial", "Verif.Server.no_abort_partial", "Verif.Server.refused_undefined", "Verif.Server.refused_undefined_global", "Verif.Server.finish_twice_aborts", "Verif.Server.announced_once"], "note": "Proved as long as open connections take messages; then the only aborting request is finishing an own trajectory twice (witness). For every state, a refused message is undefined behaviour (iterator of an erased element). Finished trajectories are announced once and in order (announced_once)."},
 {"property": "C63", "status": "proved", "theorems": ["Verif.Server.trajectory_data", "Verif.Server.no_data_without_client", "Verif.Server.data_before_finish_ignored"], "note": "The last theorem shows that data sent before FinishTrajectory may be ignored by the collator, which the property does not exclude."},
 {"property": "C64", "status": "proved", "theorems": ["Verif.LocalBuilder.builder2D_total", "Verif.LocalBuilder.builder3D_total"], "note": "Both builders, for all data in order of time; the only abort is the CHECK on gravity in the IMU tracker (C41 shows that it can fail). Scan matcher and voxel filters are arbitrary functions; in 3D the filter for measurements selects points and the matcher returns unit rotations."},
 {"property": "C65", "status": "proved", "theorems": ["Verif.LocalBuilder.builder2D_conserves", "Verif.LocalBuilder.builder3D_conserves", "Verif.LocalBuilder.builder2D_ordered", "Verif.LocalBuilder.builder3D_ordered", "Verif.LocalBuilder.matched_points", "Verif.LocalBuilder.at_range", "Verif.LocalBuilder.builder2D_fed", "Verif.LocalBuilder.builder3D_fed"], "note": "Conservation, poses per point and order of results for both builders; builder2D_fed/builder3D_fed: the extrapolator is given exactly the sensor data since its start and the results; matched_points and at_range spell out the points of a 2D result."},
 {"property": "C66", "status": "proved", "theorems": ["Verif.Points.pipeline_single_pass", "Verif.Points.pipeline_three_passes", "Verif.Points.removePoints_spec", "Verif.Points.process_mid", "Verif.Points.run_first"], "note": "Assumes at least one and fewer than 10^15 points per PLY writer, a positive voxel size and points within the range of the hybrid grid; the findings in DESIGN.md show what happens otherwise. Floating point arithmetic is exact. The contents of grids and images (XRay, probability grid, hybrid grid) are not modelled; these stages record the batches they are given."},
 {"property": "C67", "status": "proved", "theorems": ["Verif.Points.ends_within_three_passes", "Verif.Points.drive_ends", "Verif.Points.finished_shape", "Verif.Points.finished_populated", "Verif.Points.pcd_mixed_colors", "Verif.Points.unopened_unnoticed"], "note": "The last two are findings: files that do not fit their header, files that cannot be opened."},
 {"property": "C68", "status": "proved", "theorems": ["Verif.Texture.probability_texture", "Verif.Texture.tsdf_texture", "Verif.Texture.logOdds_range", "Verif.Texture.logOdds_mono", "Verif.Texture.logOdds_ends", "Verif.Texture.cell_placed", "Verif.Texture.surface_channels", "Verif.Texture.known_cell_painted"], "note": "values as rationals, log odds over the reals; compression left out"},
 {"property": "C69", "status": "partial", "theorems": ["Verif.Texture.xray_texture", "Verif.Texture.xray_placed", "Verif.Texture.xray_empty", "Verif.Texture.globalIndex_near", "Verif.Texture.xray_height"], "note": "false as stated: without an obstructed cell INT_MIN - INT_MAX overflows (xray_empty), and pixels are painted half a voxel away from the voxels they show (xray_placed gives the exact place). xray_texture proves everything else, for grids whose extent fits into int; globalIndex_near says which voxel of the global frame a cell is drawn as"},
 {"property": "C70", "status": "partial", "theorems": ["Verif.Texture.inside_image", "Verif.Texture.all_drawn", "Verif.Texture.paint_total", "Verif.Texture.later_slices_lost"], "note": "false as stated: CairoPaintSubmapSlices returns at the first slice without a surface (later_slices_lost); if all have one, all are drawn (all_drawn, paint_total); inside_image holds for all drawn slices"},
 {"property": "C71", "status": "proved", "theorems": ["Verif.Cost.normalize_range", "Verif.Cost.normalize_deriv", "Verif.Cost.spa2_zero_iff", "Verif.Cost.spa2_invariant", "Verif.Cost.analytical2_eq", "Verif.Cost.jacobian_correct", "Verif.Cost.error3_zero_iff", "Verif.Cost.error3_invariant", "Verif.Cost.toAngleAxis_length"], "note": "Over the real numbers. Weights nonzero; poses in space with unit quaternions. spa3 is scaleError3 of unscaledError3, to which error3_* apply. The length of the rotation residual is the angle of the rotation for angles above 0.0001; for smaller ones the code approximates."},
 {"property": "C72", "status": "proved", "theorems": ["Verif.Cost.parameter_range", "Verif.Cost.interpolate3_ends", "Verif.Cost.slerp_arc", "Verif.Cost.slerp_norm", "Verif.Cost.slerp_equivariant", "Verif.Cost.slerp_sign", "Verif.Cost.interpolate3_proper", "Verif.Cost.interpolate2_eq", "Verif.Cost.interpolate3_equivariant", "Verif.Cost.landmark3_zero_iff", "Verif.Cost.landmark3_invariant", "Verif.Cost.landmark2_eq"], "note": "Over the real numbers. The residual theorems assume that the interpolated rotation has norm one, which interpolate3_proper gives unless the rotations of the nodes are different but closer than 0.009 radians; there the norm is off by at most 0.000005 (slerp_norm). The sign of a quaternion matters only for rotations exactly half a turn apart."},
 {"property": "C73", "status": "partial", "theorems": ["Verif.Imu.integrate_spec", "Verif.Imu.integrate_compose", "Verif.Imu.resultOf_combine", "Verif.Imu.constant_rotation", "Verif.Imu.constant_acceleration", "Verif.Imu.uniform_drift", "Verif.Imu.rest_drift", "Verif.Imu.rotation_norm", "Verif.Imu.equal_times_abort", "Verif.Imu.measure_total", "Verif.Imu.true_motion", "Verif.Imu.tracking_velocity", "Verif.Cost.rotation3_zero_iff", "Verif.Cost.rotation3_invariant", "Verif.Cost.acceleration3_zero_iff"], "note": "False as stated for the translation: it is a (T^2 + sum of dt_i^2) / 2 for constant acceleration, so that a body at rest is extrapolated to move against gravity (rest_drift). Everything else is proved; exact rotations need steps of more than 0.0001 radians (or none), rotation_norm bounds the error of the norm otherwise. true_motion is for bodies that do not turn and durations of an even number of ticks."},
 {"property": "C74", "status": "proved", "theorems": ["Verif.RealTime.match_best", "Verif.RealTime.match_probability", "Verif.RealTime.match_tsdf", "Verif.RealTime.valueAt_generic", "Verif.RealTime.window_covered", "Verif.RealTime.step_fine", "Verif.RealTime.match_empty", "Verif.RealTime.border_shift"], "note": "Over the real numbers; windows not negative. match_best holds for all scans, with cells shifted by whole cells; match_probability and match_tsdf for scans without points on the border of two cells (for others see border_shift)."},
 {"property": "C75", "status": "proved", "theorems": ["Verif.RealTime.match_hybrid", "Verif.RealTime.match_hybrid_empty", "Verif.RealTime.match_hybrid_negative", "Verif.RealTime.window_covered3", "Verif.RealTime.cellIndex3_near", "Verif.RealTime.angleOf_fromAngleAxis"], "note": "Over the real numbers. The angle is the length of the rotation vector for lengths between 0.0001 and a half turn."},
 {"property": "C76", "status": "proved", "theorems": ["Verif.MatchCost.interpolated_eq", "Verif.MatchCost.interpolated_centre", "Verif.MatchCost.interpolated_between", "Verif.MatchCost.interpolated_smooth", "Verif.MatchCost.field_deriv", "Verif.MatchCost.field_flat", "Verif.MatchCost.interpolated_probability"], "note": "All points and grids, exact real arithmetic."},
 {"property": "C77", "status": "proved", "theorems": ["Verif.MatchCost.occupied3_eq", "Verif.MatchCost.occupied3_smooth", "Verif.MatchCost.occupied3_centre", "Verif.MatchCost.occupied3_cost", "Verif.MatchCost.intensity3_eq", "Verif.MatchCost.intensity3_missing", "Verif.MatchCost.translationDelta3_zero_iff", "Verif.MatchCost.rotationDelta3_cost", "Verif.MatchCost.rotationDelta3_zero_iff", "Verif.MatchCost.yawOnly_rotation", "Verif.MatchCost.yawOnly_gravity", "Verif.MatchCost.constantYaw_norm", "Verif.MatchCost.constantYaw_axis", "Verif.MatchCost.problem3_isSome", "Verif.MatchCost.problem3_iff", "Verif.MatchCost.problem3_cost", "Verif.MatchCost.cloud_cost", "Verif.MatchCost.loss_range", "Verif.MatchCost.match3_near", "Verif.MatchCost.problem3_options"], "note": "problem3_cost and match3_near are for clouds without intensity grid, cloud_cost is the cost with one; the solver is any pose that costs no more than the initial one."},
 {"property": "C78", "status": "proved", "theorems": ["Verif.MatchCost.bicubic_eq", "Verif.MatchCost.occupied2_eq", "Verif.MatchCost.costField_centre", "Verif.MatchCost.costField_range", "Verif.MatchCost.costField_unknown", "Verif.MatchCost.costField_contDiff", "Verif.MatchCost.occupied2_smooth", "Verif.MatchCost.costField_negative", "Verif.MatchCost.costField_large", "Verif.MatchCost.problem2_iff", "Verif.MatchCost.problem2_cost", "Verif.MatchCost.match2_near"], "note": "Within reach: the padded index fits an int; the interpolator of Ceres by its documented formula."},
 {"property": "C79", "status": "proved", "theorems": ["Verif.MatchCost.tsdfWeight_eq", "Verif.MatchCost.tsdfWeight_continuous", "Verif.MatchCost.tsdfCost_eq", "Verif.MatchCost.pointDistance_range", "Verif.MatchCost.point_centre", "Verif.MatchCost.tsdfMatch_eq", "Verif.MatchCost.tsdfMatch_bound", "Verif.MatchCost.tsdfMatch_concentrated", "Verif.MatchCost.problem2Tsdf_iff", "Verif.MatchCost.problem2Tsdf_cost", "Verif.MatchCost.matchTsdf_near", "Verif.MatchCost.tsdfMatch_jump"], "note": "The property includes the discontinuity, with a witness."},
 {"property": "C80", "status": "proved", "theorems": ["Verif.Rotational.rotate_eq", "Verif.Rotational.rotate_length", "Verif.Rotational.rotate_sum", "Verif.Rotational.rotate_range", "Verif.Rotational.rotate_norm", "Verif.Rotational.rotate_whole", "Verif.Rotational.rotate_period", "Verif.Rotational.rotate_zero", "Verif.Rotational.rotated_continuous", "Verif.Rotational.matchHistograms_range", "Verif.Rotational.matchHistograms_self", "Verif.Rotational.matchHistograms_small", "Verif.Rotational.matchHistograms_one", "Verif.Rotational.match_range", "Verif.Rotational.match_append"], "note": "float is the real numbers."},
 {"property": "C81", "status": "proved", "theorems": ["Verif.Rotational.addValue_eq", "Verif.Rotational.addValue_nil", "Verif.Rotational.bucket_half_turns", "Verif.Rotational.bucket_horizontal", "Verif.Rotational.sliceVotes_spec", "Verif.Rotational.sliceVotes_length", "Verif.Rotational.weight_eq", "Verif.Rotational.slices_eq", "Verif.Rotational.computeHistogram_eq", "Verif.Rotational.computeHistogram_spec", "Verif.Rotational.computeHistogram_zero", "Verif.Rotational.histogram_invariant", "Verif.Rotational.votes_rotate", "Verif.Rotational.addSlice_rotate", "Verif.Rotational.match_rotated", "Verif.Rotational.match_not_rotated"], "note": "float is the real numbers; the sort is an argument that has to permute and to order by angle."},
 {"property": "C82", "status": "proved", "theorems": ["Verif.Floors.detectFloors_none", "Verif.Floors.detectFloors_spec", "Verif.Floors.detectFloors_apart", "Verif.Floors.detectFloors_unique", "Verif.Floors.cut_unique", "Verif.Floors.jump_at_start", "Verif.Floors.part_twice", "Verif.Floors.part_lost", "Verif.Floors.chain_one_floor"], "note": "double is Q, the horizontal distance is an argument; timestamps are kept as integers"},
 {"property": "C83", "status": "proved", "theorems": ["Verif.GroundTruth.representatives_iff", "Verif.GroundTruth.generate_isSome", "Verif.GroundTruth.generate_spec", "Verif.GroundTruth.generate_covered", "Verif.GroundTruth.generate_move", "Verif.GroundTruth.generated_errors", "Verif.GroundTruth.same_time_differs", "Verif.GroundTruth.relation_iff", "Verif.GroundTruth.gap_le_way", "Verif.GroundTruth.angle_exact"], "note": "Unit quaternions are a hypothesis; two nodes with the same time are shown to break the closed loop, so it is stated for different times."},
 {"property": "C84", "status": "proved", "theorems": ["Verif.GroundTruth.bufferOf_iff", "Verif.GroundTruth.lookupTransform_spec", "Verif.GroundTruth.lookupTransform_isSome", "Verif.GroundTruth.lookupTransform_node", "Verif.GroundTruth.computeError_spec", "Verif.GroundTruth.computeError_move", "Verif.GroundTruth.rotational_swap", "Verif.GroundTruth.translational_swap_differs", "Verif.GroundTruth.error_zero", "Verif.GroundTruth.meanAndStdDev_some", "Verif.GroundTruth.meanAndStdDev_spec", "Verif.GroundTruth.mean_between", "Verif.GroundTruth.dev_zero", "Verif.GroundTruth.meanAndStdDev_perm", "Verif.GroundTruth.mean_squares", "Verif.GroundTruth.statistics_some", "Verif.GroundTruth.errors_iff", "Verif.GroundTruth.run_isSome", "Verif.GroundTruth.run_means"], "note": "double is modelled as the reals; formatting of the numbers is not modelled."},
 {"property": "C85", "status": "proved", "theorems": ["Verif.Messages.imu_roundtrip", "Verif.Messages.imu_writeback", "Verif.Messages.odometry_roundtrip", "Verif.Messages.odometry_unset", "Verif.Messages.fixedFrame_roundtrip", "Verif.Messages.fixedFrame_missing", "Verif.Messages.landmark_roundtrip", "Verif.Messages.sensorId_iff", "Verif.Messages.sensorId_none", "Verif.Messages.timedCloud_roundtrip", "Verif.Messages.timedCloud_legacy", "Verif.Messages.timedCloud_new", "Verif.Messages.rangeData_roundtrip", "Verif.Messages.rangeData_exact", "Verif.Messages.node_roundtrip", "Verif.Messages.node_aborts", "Verif.Messages.node_again", "Verif.Messages.stored_once"], "note": "Losses of intensities and the nodes that can be stored only once are part of the statement."},
 {"property": "C86", "status": "proved", "theorems": ["Verif.LoopClosure.parameters_best", "Verif.LoopClosure.empty_no_match", "Verif.LoopClosure.match_best", "Verif.LoopClosure.window_covered", "Verif.LoopClosure.full_best", "Verif.LoopClosure.plane_covered", "Verif.LoopClosure.score_accuracy", "Verif.LoopClosure.cells_generic"], "note": "The order of candidates is given by any sort that permutes; scores of the scan are compared with the mean of the cells."},
 {"property": "C87", "status": "proved", "theorems": ["Verif.LoopClosure.relative_distance", "Verif.LoopClosure.relative_invariant", "Verif.LoopClosure.searches_per_submap", "Verif.LoopClosure.far_ignored", "Verif.LoopClosure.bad_ratio", "Verif.LoopClosure.match_residual", "Verif.LoopClosure.local_constraint", "Verif.LoopClosure.global_constraint", "Verif.LoopClosure.global_guess", "Verif.LoopClosure.choose_aborts", "Verif.LoopClosure.choose_local", "Verif.LoopClosure.choose_global", "Verif.LoopClosure.choose_epoch", "Verif.LoopClosure.choose_incomplete", "Verif.LoopClosure.latestTime_spec", "Verif.LoopClosure.global_share"], "note": "The refinement by Ceres is any function of the estimate."},
 {"property": "C88", "status": "proved", "theorems": ["Verif.Collators.trajectories_apart", "Verif.Collators.shared_behind", "Verif.Collators.same_deliveries", "Verif.Collators.finish_again", "Verif.Collators.unknown_sensor", "Verif.Collators.no_sensors"], "note": "Sessions add their trajectories first; the abort of the common collator for trajectories added late is part of C03."},
 {"property": "C89", "status": "proved", "theorems": ["Verif.RateTimer.kept_events", "Verif.RateTimer.kept_any_clock", "Verif.RateTimer.rate_bounds", "Verif.RateTimer.rate_steady", "Verif.RateTimer.mean_inverse_of_rate", "Verif.RateTimer.debug_total", "Verif.RateTimer.sigma_nan", "Verif.RateTimer.sigma_num", "Verif.RateTimer.sigma_steady", "Verif.RateTimer.ratio_steady", "Verif.RateTimer.rate_degenerate"], "note": "For exactly two events the deviation is not a number (sigma_nan); the square root and the format of the text are left out."},
 {"property": "C90", "status": "proved", "theorems": ["Verif.Feed.feed_order", "Verif.Feed.feed_complete", "Verif.Feed.feed_rates", "Verif.Feed.same_id_aborts"], "note": "Sensor ids of different types share one queue if equal (same_id_aborts), so order is required for each id."},
 {"property": "C91", "status": "proved", "theorems": ["Verif.Feed.run_done", "Verif.Feed.builder_ok_iff", "Verif.Feed.remote_ok_iff", "Verif.Feed.slam_in_order", "Verif.Feed.kind_increasing", "Verif.Feed.store_iff", "Verif.Feed.imu_stored", "Verif.Feed.odometry_stored", "Verif.Feed.fixed_stored", "Verif.Feed.two_imus_abort"], "note": "The local trajectory builder is any state machine; two sensors of one type with a common time abort in the pose graph (two_imus_abort)."},
 {"property": "C92", "status": "proved", "theorems": ["Verif.NormalEstimation.window_spec", "Verif.NormalEstimation.normals_length", "Verif.NormalEstimation.faces_sensor", "Verif.NormalEstimation.alone", "Verif.NormalEstimation.wall", "Verif.NormalEstimation.normals_turn", "Verif.NormalEstimation.coincident_points", "Verif.NormalEstimation.grazing"], "note": "Real arithmetic for floats; normals as complex numbers."},
 {"property": "C93", "status": "proved", "theorems": ["Verif.Match3D.match_best", "Verif.Match3D.full_best", "Verif.Match3D.scoreOf_near", "Verif.Match3D.cells_shift", "Verif.Match3D.cells_border", "Verif.Match3D.poseOf_global", "Verif.Match3D.step_fine", "Verif.Match3D.angles_cover", "Verif.Match3D.full_circle"], "note": "Scans with no point farther than 9000 voxels for the angles; the grid needs room below it as in C53."},
 {"property": "C94", "status": "proved", "theorems": ["Verif.Match3D.frame_free", "Verif.Match3D.match_frame_free", "Verif.Match3D.rotational_candidate", "Verif.Match3D.upside_down", "Verif.Match3D.local_constraint", "Verif.Match3D.global_constraint", "Verif.Match3D.empty_scan", "Verif.Match3D.global_guess", "Verif.Match3D.maybeAdd_eq"], "note": "The scan matcher that refines the pose is an argument."},
 {"property": "C95", "status": "proved", "theorems": ["Verif.Migration.build_eq", "Verif.Migration.build_append", "Verif.Migration.mapping_eq", "Verif.Migration.mem_intraOf", "Verif.Migration.migrate_exact", "Verif.Migration.migrate_aborts", "Verif.Migration.migrate_perm", "Verif.Migration.migration_restores", "Verif.Migration.migrated_total", "Verif.Migration.trimmed_differs", "Verif.Migration.unconstrained_matches"], "note": "Exact reals for floats."},
 {"property": "C96", "status": "proved", "theorems": ["Verif.Migration.never_aborts", "Verif.Migration.nodes_and_submaps", "Verif.Migration.constraints_all_or_none", "Verif.Migration.data_prefix", "Verif.Migration.drained_complete", "Verif.Migration.gaps_abort", "Verif.Migration.everything_lost", "Verif.Migration.constraints_written"], "note": "Order of data within a kind is that of insertion; poses of nodes and submaps in the pose graph record are left out."},
 {"property": "C97", "status": "proved", "theorems": ["Verif.ClientStub.insertAll_flat", "Verif.ClientStub.submapPoses_same", "Verif.ClientStub.nodePoses_same", "Verif.ClientStub.toState_iff", "Verif.ClientStub.states_same", "Verif.ClientStub.landmarks_same", "Verif.ClientStub.constraints_same", "Verif.ClientStub.localToGlobal_same", "Verif.ClientStub.sensors_same", "Verif.ClientStub.result_same", "Verif.ClientStub.setLandmark_exact", "Verif.ClientStub.setLandmark_same", "Verif.ClientStub.remoteSave_eq", "Verif.ClientStub.unfinished_lost", "Verif.ClientStub.one_header", "Verif.ClientStub.handler_sees", "Verif.ClientStub.load_remap", "Verif.ClientStub.register_spec", "Verif.ClientStub.remoteLoad_same", "Verif.ClientStub.constraints_refused"], "note": "What is dropped on the way (frozen landmarks, unfinished submaps, intensities) is stated exactly in setLandmark_same, remoteSave_eq and result_same."},
 {"property": "C98", "status": "proved", "theorems": ["Verif.SensorStreams.stream_split", "Verif.SensorStreams.order_kept", "Verif.SensorStreams.all_arrive", "Verif.SensorStreams.can_drain", "Verif.SensorStreams.same_as_direct", "Verif.SensorStreams.overtaken", "Verif.SensorStreams.late_subscriber_never_told"], "note": "For a client that waits before finishing; the stub does not wait, and overtaken shows what happens then."},
 {"property": "C99", "status": "proved", "theorems": ["Verif.ImuExtrapolator.extrapolate_iff", "Verif.ImuExtrapolator.no_abort", "Verif.ImuExtrapolator.create_some", "Verif.ImuExtrapolator.imu_kept", "Verif.ImuExtrapolator.poses_bounded", "Verif.ImuExtrapolator.pop_spec", "Verif.ImuExtrapolator.trim_spec", "Verif.ImuExtrapolator.odometryTerm_eq", "Verif.ImuExtrapolator.two_poses", "Verif.ImuExtrapolator.three_poses", "Verif.ImuExtrapolator.early_result", "Verif.ImuExtrapolator.result_count", "Verif.ImuExtrapolator.result_line", "Verif.ImuExtrapolator.initial_values", "Verif.ImuExtrapolator.estimate_uniform", "Verif.ImuExtrapolator.true_solution", "Verif.ImuExtrapolator.initial_poses_too_old", "Verif.ImuExtrapolator.future_pose_abort", "Verif.ImuExtrapolator.equal_poses"], "note": "The solver is an argument, of which only the number of nodes is assumed. true_solution is for a body that does not turn, without odometry and for even numbers of ticks between poses. Times of poses are strictly increasing where stated; equal_poses shows what happens otherwise."}
]}
