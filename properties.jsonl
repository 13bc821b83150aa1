{"id":"C01","title":"A work item runs once and only after its dependencies","statement":"For every set of tasks, every acyclic way of declaring dependencies between them before scheduling and every interleaving of scheduling calls and worker threads, the work item of a task is started at most once, and it is never started before the work items of all tasks it was declared to depend on have finished.","quantifier":"all finite or growing sets of tasks, all dependency declarations on already scheduled tasks, all numbers of worker threads, all interleavings of atomic steps","why_tests_cant":"A test observes a handful of thread schedules; the claim ranges over every interleaving of an unbounded number of tasks and workers.","anchors":["cartographer/common/task.h","cartographer/common/task.cc:Task::AddDependency,Task::AddDependentTask,Task::OnDependenyCompleted,Task::SetThreadPool,Task::Execute","cartographer/common/thread_pool.cc:ThreadPool::Schedule,ThreadPool::NotifyDependenciesCompleted,ThreadPool::DoWork"]}
{"id":"C02","title":"Shutting a thread pool down completes every scheduled task","statement":"When the thread pool destructor returns, every task that was scheduled on it, whose dependencies were all scheduled on it as well, has been executed to completion; no internal consistency check of the task life cycle can fail, and as long as some scheduled task is incomplete some thread can make a step.","quantifier":"all sets of scheduled tasks with acyclic dependencies, all worker counts >= 1, all interleavings including the position of the shutdown request","why_tests_cant":"Loss of a wake-up or of a queued task at shutdown shows only under rare schedules; the absence of any such schedule cannot be sampled.","anchors":["cartographer/common/thread_pool.cc:ThreadPool::~ThreadPool,ThreadPool::DoWork","cartographer/common/task.cc:Task::Execute,Task::OnDependenyCompleted"]}
{"id":"C03","title":"Sensor data of a trajectory is delivered in time order","statement":"If the data added for each individual sensor of a trajectory is non-decreasing in time, then the merged sequence handed to the callbacks is non-decreasing in time, whatever the order in which the sensors' messages arrive, and the ordering consistency check inside the collator never aborts the process.","quantifier":"all numbers of sensors, all per-sensor time-sorted message lists, all interleavings of add, mark-as-finished and flush calls","why_tests_cant":"The number of interleavings of several sensor streams is unbounded and the failure is a process abort on one particular arrival pattern.","anchors":["cartographer/sensor/internal/ordered_multi_queue.cc:OrderedMultiQueue::Add,OrderedMultiQueue::Dispatch,OrderedMultiQueue::MarkQueueAsFinished,OrderedMultiQueue::Flush","cartographer/sensor/internal/trajectory_collator.cc"]}
{"id":"C04","title":"Collation neither duplicates, reorders nor loses a sensor's data","statement":"For each sensor the messages delivered to its callback are, in order and without repetition, messages that were added for it; after a flush the only undelivered messages are ones older than the common start time (the latest of the first message times of the trajectory's sensors), except that the last message at or before the common start is delivered.","quantifier":"all sensors, all sequences of add, mark-as-finished and flush calls, all message times","why_tests_cant":"A test fixes a few streams; loss depends on the relative timing of heads of all queues at the moment of each arrival.","anchors":["cartographer/sensor/internal/ordered_multi_queue.cc:OrderedMultiQueue::Dispatch,OrderedMultiQueue::GetCommonStartTime"]}
{"id":"C05","title":"Collated output does not depend on the arrival interleaving","statement":"For a fixed list of messages per sensor, the complete sequence of callbacks made by the time everything has been added and flushed is the same for every order in which the messages of different sensors arrive.","quantifier":"all pairs of interleavings of the same per-sensor message lists","why_tests_cant":"Determinism is a relation between all pairs of runs, not a property of any one run.","anchors":["cartographer/sensor/internal/ordered_multi_queue.cc:OrderedMultiQueue::Dispatch","cartographer/sensor/internal/collator.cc"]}
{"id":"C06","title":"The queue reported as blocker is really the one being waited for","statement":"Whenever messages are held back after an add, the sensor reported as blocker is a registered, unfinished sensor; no held-back message could be delivered without violating the time order for some possible future message of that sensor or without its knowledge of the start time; and adding data to other sensors only never unblocks delivery past it.","quantifier":"all reachable collator states","why_tests_cant":"It speaks about every reachable state and every possible future message.","anchors":["cartographer/sensor/internal/ordered_multi_queue.cc:OrderedMultiQueue::GetBlocker,OrderedMultiQueue::CannotMakeProgress,OrderedMultiQueue::Dispatch"]}
{"id":"C07","title":"Blocking queue is a bounded FIFO under every schedule","statement":"For any number of producers and consumers, items leave the blocking queue in the order they entered, none is lost or duplicated, the number of stored items never exceeds the configured size when that is non-zero, and a timed operation that reports failure has not changed the queue.","quantifier":"all producer/consumer counts, all interleavings, all timeouts, all queue sizes","why_tests_cant":"Stress tests sample schedules; the claim quantifies over all of them.","anchors":["cartographer/common/internal/blocking_queue.h:BlockingQueue"]}
{"id":"C08","title":"The id-keyed map behaves as an ordered map","statement":"After any sequence of append, insert and trim operations that does not abort, looking up an id returns the value last stored under it and not trimmed, iteration (in either direction) visits exactly the stored ids in increasing (trajectory, index) order each once, and the size queries agree with it.","quantifier":"all finite operation histories, all ids and values","why_tests_cant":"It relates the iterators to the contents after every history, including gaps, emptied trajectories and negative lookups.","anchors":["cartographer/mapping/id.h:MapById"]}
{"id":"C09","title":"Appended ids are never handed out twice","statement":"An id returned by appending to a trajectory is different from every id that was ever present in that map before, so a stale reference to a trimmed node or submap can never silently resolve to a newer one.","quantifier":"all finite operation histories of append, insert and trim","why_tests_cant":"It compares an id with the whole past of the container, including trimmed entries.","anchors":["cartographer/mapping/id.h:MapById::Append,MapById::Trim,MapById::Insert"]}
{"id":"C10","title":"Lookup by time returns the first element not before the time","statement":"For a trajectory whose elements are in non-decreasing time order, the lower bound query returns the first element whose time is not less than the query time, or the end of the trajectory if none exists, whatever gaps trimming has left in the indices.","quantifier":"all trajectories with arbitrary index gaps, all times","why_tests_cant":"Binary search errors depend on the exact pattern of gaps and positions; the space of patterns is unbounded.","anchors":["cartographer/mapping/id.h:MapById::lower_bound"]}
{"id":"C11","title":"Trimming a node keeps sensor data usable for interpolation","statement":"When sensor data is trimmed together with a node, every remaining node of the trajectory that could be bracketed by (or had) sensor data at or around its time before the trim still sees the same nearest data at or before and at or after its time, and no data outside the gap left by the node is removed.","quantifier":"all node sets, all sensor data sequences, all trimmed nodes","why_tests_cant":"It quantifies over all queries from all surviving nodes after every trim history.","anchors":["cartographer/sensor/map_by_time.h:MapByTime::Trim,MapByTime::Append,MapByTime::lower_bound"]}
{"id":"C12","title":"Probability quantisation round trips and is order preserving","statement":"Encoding a probability or correspondence cost gives a value in 1..32767, decoding that value gives back the clamped input within half a quantisation step, encoding a decoded value returns the same code, encoding is monotone, and converting a stored value between its probability and cost representations and back is the identity including the update-marker bit.","quantifier":"all real inputs and all 16 bit values","why_tests_cant":"The input space is the reals; a test samples it.","anchors":["cartographer/mapping/probability_values.h","cartographer/mapping/probability_values.cc","cartographer/mapping/value_conversion_tables.cc"]}
{"id":"C13","title":"Occupancy updates move the estimate in the right direction and stay in range","statement":"Applying a hit table (odds above one) never lowers and applying a miss table (odds below one) never raises the stored probability of a cell; an updated cell is always known and always within the permitted probability range, whatever the update history.","quantifier":"all cell values, all odds, all sequences of updates","why_tests_cant":"The histories and odds are unbounded and the claim must survive rounding at every one of the 32768 values.","anchors":["cartographer/mapping/probability_values.cc:ComputeLookupTableToApplyOdds,ComputeLookupTableToApplyCorrespondenceCostOdds","cartographer/mapping/2d/probability_grid.cc:ProbabilityGrid::ApplyLookupTable"]}
{"id":"C14","title":"Each cell is updated at most once per scan","statement":"Between two calls that finish an update, only the first table application to a cell has an effect, the others report false and leave the cell unchanged; after finishing, every touched cell is readable as a normal value, can be updated again, and no cell keeps a pending mark.","quantifier":"all sequences of table applications, all cells, all grids","why_tests_cant":"It is an invariant over arbitrary update sequences with repeats in any positions.","anchors":["cartographer/mapping/2d/probability_grid.cc:ProbabilityGrid::ApplyLookupTable","cartographer/mapping/2d/grid_2d.cc:Grid2D::FinishUpdate"]}
{"id":"C15","title":"Growing a map never changes what is known where","statement":"Growing the limits of a 2D grid to contain a point terminates with limits that contain the point, every location of the old map keeps exactly its value at the same world coordinates, and every newly added location is unknown.","quantifier":"all grid sizes, contents, resolutions and points","why_tests_cant":"The number of doublings, sizes and contents is unbounded.","anchors":["cartographer/mapping/2d/grid_2d.cc:Grid2D::GrowLimits","cartographer/mapping/2d/map_limits.h:MapLimits"]}
{"id":"C16","title":"Cell index and cell centre are mutually consistent","statement":"The centre of a cell maps back to that cell, every point within half a cell of a centre in both axes maps to that cell, and a point is reported as contained exactly when its index lies within the cell limits.","quantifier":"all resolutions > 0, all limits, all points","why_tests_cant":"Quantifies over a continuum of points and resolutions, with rounding ties at the boundaries.","anchors":["cartographer/mapping/2d/map_limits.h:MapLimits::GetCellIndex,MapLimits::GetCellCenter,MapLimits::Contains"]}
{"id":"C17","title":"Saving and loading a 2D grid loses nothing","statement":"A 2D grid that is written to its serialized form and read back answers every query exactly as the original, and cropping a grid keeps every known cell at its world position while dropping only unknown cells.","quantifier":"all reachable grids, all queries","why_tests_cant":"A test compares finitely many grids.","anchors":["cartographer/mapping/2d/grid_2d.cc:Grid2D::ToProto,Grid2D::Grid2D,Grid2D::ComputeCroppedLimits","cartographer/mapping/2d/probability_grid.cc:ProbabilityGrid::ComputeCroppedGrid"]}
{"id":"C18","title":"The 3D hybrid grid is a total map from voxels to values","statement":"Reading a voxel returns the value last written to it, or the default if it was never written, whatever growth happened in between; growth never moves or loses a value, and indices within the supported range never abort.","quantifier":"all write sequences, all voxel indices, all growth patterns","why_tests_cant":"Octree re-rooting depends on the history of extremes touched; the histories are unbounded.","anchors":["cartographer/mapping/3d/hybrid_grid.h:DynamicGrid,NestedGrid,FlatGrid,HybridGridBase"]}
{"id":"C19","title":"Iterating a hybrid grid enumerates exactly the stored voxels","statement":"The iterator over a hybrid grid yields every voxel whose value differs from the default exactly once with its correct index and value, and nothing else; therefore serializing a 3D grid and loading it again reproduces every voxel value.","quantifier":"all reachable grids","why_tests_cant":"It is an exact set equality for every reachable octree shape.","anchors":["cartographer/mapping/3d/hybrid_grid.h:FlatGrid::Iterator,NestedGrid::Iterator,DynamicGrid::Iterator,HybridGrid::ToProto"]}
{"id":"C20","title":"Ray casting visits exactly the cells the ray crosses","statement":"The pixel mask of a ray contains exactly the pixels met by the line segment between the two sub-pixel centres, each once and each next to its predecessor, starting with the pixel of one end and ending with the pixel of the other, and none of its internal consistency checks can fail.","quantifier":"all start and end sub-pixel coordinates with valid preconditions, all sub-pixel scales","why_tests_cant":"Boundary hits and slopes form an infinite family of integer configurations.","anchors":["cartographer/mapping/internal/2d/ray_to_pixel_mask.cc:RayToPixelMask"]}
{"id":"C21","title":"Inserting a scan applies hits over misses, once per cell","statement":"Inserting range data changes each cell containing a return by exactly one hit update, each other cell crossed by a ray by exactly one miss update (if free space insertion is enabled), and no other cell, independently of the order of the points in the scan.","quantifier":"all scans, all grids","why_tests_cant":"Overlapping rays and hits can be arranged in unboundedly many ways.","anchors":["cartographer/mapping/2d/probability_grid_range_data_inserter_2d.cc:CastRays,ProbabilityGridRangeDataInserter2D::Insert","cartographer/mapping/3d/range_data_inserter_3d.cc:RangeDataInserter3D::Insert"]}
{"id":"C22","title":"Active submap life cycle","statement":"After any number of range data insertions there are one or two active submaps, they overlap by exactly the configured number n of insertions, a submap is finished exactly when it holds 2n range data and is never written again, and no internal check fails.","quantifier":"all n >= 1, all insertion counts, 2D and 3D","why_tests_cant":"It is an invariant for every number of insertions and every configuration value.","anchors":["cartographer/mapping/2d/submap_2d.cc:ActiveSubmaps2D::InsertRangeData,ActiveSubmaps2D::AddSubmap","cartographer/mapping/3d/submap_3d.cc:ActiveSubmaps3D::InsertData"]}
{"id":"C23","title":"Trajectory connectivity is the equivalence closure of connections","statement":"Two trajectories are reported as transitively connected exactly when they are equal or linked by a chain of recorded connections; the reported components partition the tracked trajectories; the connection count of a pair is the number of times that unordered pair was connected.","quantifier":"all sequences of add, connect and query calls (queries compress paths)","why_tests_cant":"Union-find with path compression mutates on queries; the claim covers every history of mixed calls.","anchors":["cartographer/mapping/internal/connected_components.cc:ConnectedComponents"]}
{"id":"C24","title":"Last connection time of two trajectories","statement":"For any two trajectories the reported last connection time is the largest time at which they have been connected, directly or through the trajectories they were transitively connected with, zero if never; and connecting trajectories that were not registered before registers them.","quantifier":"all sequences of add and connect calls with non-decreasing or arbitrary times","why_tests_cant":"It relates the answer to the whole connection history over unboundedly many trajectories.","anchors":["cartographer/mapping/internal/trajectory_connectivity_state.cc:TrajectoryConnectivityState::Connect,TrajectoryConnectivityState::LastConnectionTime"]}
{"id":"C25","title":"Point cloud compression preserves the cloud up to its precision","statement":"Decompressing a compressed point cloud yields the same number of points, a permutation of the input rounded to the grid of precision 0.001, so that every coordinate is within half a millimetre; writing it to its serialized form and back is the identity, and reading never runs past the end.","quantifier":"all point clouds within the supported coordinate range","why_tests_cant":"Bit packing with negative coordinates must hold for every coordinate combination and count.","anchors":["cartographer/sensor/compressed_point_cloud.cc:CompressedPointCloud"]}
{"id":"C26","title":"Voxel filter keeps exactly one point per occupied voxel","statement":"The filtered cloud is a subsequence of the input that contains exactly one point from every occupied voxel, with intensities kept aligned with their points, for every outcome of the random selection.","quantifier":"all point clouds, all resolutions, all random choices","why_tests_cant":"Quantifies over all random outcomes and all clouds, including negative and far coordinates.","anchors":["cartographer/sensor/internal/voxel_filter.cc:VoxelFilter,RandomizedVoxelFilterIndices,GetVoxelCellIndex"]}
{"id":"C27","title":"Merging several range sensors conserves points and orders them by time","statement":"Every synchronized scan produced from several range sensors is sorted by point time, contains only points with times up to the scan time, points of consecutive scans do not overlap in time, and every point that is not older than the window start when it is added is delivered exactly once or still buffered.","quantifier":"all sensors, all sequences of timed point clouds with increasing times per sensor","why_tests_cant":"The window logic depends on the whole interleaving of overlapping clouds.","anchors":["cartographer/mapping/internal/range_data_collator.cc:RangeDataCollator::AddRangeData,RangeDataCollator::CropAndMerge"]}
{"id":"C28","title":"Stream files read back exactly what was written, at every crash point","statement":"Reading a finished stream file yields exactly the written messages in order and then end of file. If writing was cut off at any byte, reading yields a prefix of the written messages; a truncated file can be told apart from a complete one by the reader.","quantifier":"all message sequences, all truncation points","why_tests_cant":"Crash points are every byte position of every file.","anchors":["cartographer/io/proto_stream.cc:ProtoStreamWriter,ProtoStreamReader"]}
{"id":"C29","title":"A saved mapping state can be loaded back","statement":"The record sequence written when saving the state is accepted by the loader: the header is first, the pose graph and builder options follow, the numbers of trajectories in both agree, and every later record refers to a trajectory listed there.","quantifier":"all pose graph contents and trajectory states at the time of saving","why_tests_cant":"Agreement must hold for every combination of deleted, empty and unfinished trajectories.","anchors":["cartographer/io/internal/mapping_state_serialization.cc:WritePbStream","cartographer/io/proto_stream_deserializer.cc:ProtoStreamDeserializer","cartographer/mapping/map_builder.cc:MapBuilder::SerializeState,MapBuilder::LoadState"]}
{"id":"C30","title":"Sampling keeps the configured ratio at every prefix","statement":"After any number k of pulses the sampler with ratio r in [0,1] has said yes exactly ceil(r*k) times; in particular ratio 1 samples everything and ratio 0 nothing.","quantifier":"all ratios in [0,1], all pulse counts","why_tests_cant":"Holds for every prefix length and every ratio.","anchors":["cartographer/common/fixed_ratio_sampler.cc:FixedRatioSampler::Pulse"]}
{"id":"C31","title":"Motion filter never suppresses two poses in a row beyond the limits","statement":"A pose is filtered exactly when, compared with the last pose that was let through, time, distance and angle are all within the limits; the first pose is always let through; hence two consecutive poses that are let through differ by more than a limit, and every filtered pose is within all limits of the last one let through.","quantifier":"all pose sequences and limits","why_tests_cant":"It compares with the last accepted pose through arbitrary histories.","anchors":["cartographer/mapping/internal/motion_filter.cc:MotionFilter::IsSimilar"]}
{"id":"C32","title":"Pose graph work items run one at a time, in order, exactly once","statement":"Every work item added to the pose graph is executed exactly once, in the order of addition, never concurrently with another one, and never while an optimization requested by an earlier item is still in progress; no wake-up is lost.","quantifier":"all numbers of adding threads, all interleavings with the worker pool and the optimization callback","why_tests_cant":"Lost wake-ups and double drains happen only under particular interleavings.","anchors":["cartographer/mapping/internal/2d/pose_graph_2d.cc:PoseGraph2D::AddWorkItem,PoseGraph2D::DrainWorkQueue,PoseGraph2D::HandleWorkQueue"]}
{"id":"C33","title":"Trajectory state machine","statement":"A trajectory only moves from active to finished or frozen and from there to deleted; data is accepted only while the trajectory is active and not scheduled for deletion; a deleted trajectory never becomes anything else.","quantifier":"all sequences of public pose graph operations","why_tests_cant":"It is a statement on all histories of asynchronous requests.","anchors":["cartographer/mapping/internal/2d/pose_graph_2d.cc:PoseGraph2D::FinishTrajectory,PoseGraph2D::FreezeTrajectory,PoseGraph2D::DeleteTrajectory,PoseGraph2D::CanAddWorkItemModifying,PoseGraph2D::DeleteTrajectoriesIfNeeded"]}
{"id":"C34","title":"Trimming a submap leaves no dangling references","statement":"After a submap is trimmed no constraint refers to it or to a removed node, every node that belonged to another surviving submap survives, exactly the nodes that belonged to no other submap are removed, and constraints between surviving submaps and nodes are untouched.","quantifier":"all pose graph contents satisfying the graph invariant, all finished submaps","why_tests_cant":"Referential integrity must hold for every graph and trim sequence.","anchors":["cartographer/mapping/internal/2d/pose_graph_2d.cc:PoseGraph2D::TrimmingHandle::TrimSubmap"]}
{"id":"C35","title":"Pure localization keeps the newest submaps","statement":"After each trimming pass of the localization trimmer at most the configured number of the newest submaps of its trajectory remain, nothing of other trajectories is trimmed, and once the trajectory is finished everything is trimmed and the trajectory is marked deleted.","quantifier":"all submap counts, all sequences of passes","why_tests_cant":"Holds for every interleaving of growth and trimming.","anchors":["cartographer/mapping/pose_graph_trimmer.cc:PureLocalizationTrimmer::Trim"]}
{"id":"C36","title":"Overlap trimming only removes submaps that are covered by fresher ones","statement":"A submap is selected for removal exactly if the number of cells in which it is among the configured number of freshest submaps is below the configured minimum.","quantifier":"all submap layouts, all cell counts","why_tests_cant":"Cell counts are unbounded; counter width problems show only for large maps.","anchors":["cartographer/mapping/internal/2d/overlapping_submaps_trimmer_2d.cc:FindSubmapIdsToTrim"]}
{"id":"C37","title":"Precomputed grids bound every finer candidate","statement":"For each window width the precomputed value of a cell equals the maximum of the (quantised) scores of the original cells in the width by width window starting there, cells outside the map counting as the minimum; hence the score of a coarse candidate is an upper bound for the score of every candidate in its window.","quantifier":"all grids, all widths, all positions including outside the map","why_tests_cant":"Sliding-window bookkeeping must hold for every grid size, including those smaller than the window.","anchors":["cartographer/mapping/internal/2d/scan_matching/fast_correlative_scan_matcher_2d.cc:SlidingWindowMaximum,PrecomputationGrid2D::PrecomputationGrid2D","cartographer/mapping/internal/2d/scan_matching/fast_correlative_scan_matcher_2d.h:PrecomputationGrid2D::GetValue"]}
{"id":"C38","title":"Branch and bound finds the best pose in the search window","statement":"The fast scan matcher reports success exactly when some candidate pose in the search window scores above the minimum score, and then the pose it returns has the maximal score among all candidate poses of the window.","quantifier":"all grids, scans, search windows, depths and minimum scores","why_tests_cant":"Optimality compares with every candidate of every problem instance.","anchors":["cartographer/mapping/internal/2d/scan_matching/fast_correlative_scan_matcher_2d.cc:FastCorrelativeScanMatcher2D::BranchAndBound,FastCorrelativeScanMatcher2D::GenerateLowestResolutionCandidates,FastCorrelativeScanMatcher2D::ScoreCandidates"]}
{"id":"C39","title":"Rigid transforms form a group acting on points","statement":"Composition of rigid transforms is associative with the identity as unit, the inverse undoes a transform on both sides, composition agrees with applying the transforms one after another to a point, distances are preserved, and embedding a 2D transform into 3D commutes with composition and inverse.","quantifier":"all 2D transforms and all 3D transforms with unit quaternions","why_tests_cant":"Algebraic laws over a continuum.","anchors":["cartographer/transform/rigid_transform.h:Rigid2,Rigid3","cartographer/transform/transform.h:Embed3D,Project2D"]}
{"id":"C40","title":"Transform interpolation buffer answers within its window","statement":"The buffer never holds more than its size limit and keeps the newest entries in time order; a lookup succeeds exactly for times between the earliest and the latest entry, returns the stored transform at stored times, and otherwise interpolates between the two neighbouring entries without dividing by zero.","quantifier":"all push sequences with non-decreasing times, all limits, all lookup times","why_tests_cant":"Quantifies over all histories and lookup times including duplicates.","anchors":["cartographer/transform/transform_interpolation_buffer.cc","cartographer/transform/timestamped_transform.cc:Interpolate"]}
{"id":"C41","title":"Extrapolated pose at the time of the newest pose is that pose","statement":"Directly after a pose is added at some time, extrapolating to that same time returns the added pose; extrapolation never aborts for times not earlier than the newest pose and the last extrapolated time.","quantifier":"all histories of add pose, IMU, odometry and extrapolation calls","why_tests_cant":"The answer depends on cached state from arbitrary earlier calls.","anchors":["cartographer/mapping/pose_extrapolator.cc:PoseExtrapolator::AddPose,PoseExtrapolator::ExtrapolatePose"]}
{"id":"C42","title":"Constraint computations are all reported exactly once","statement":"When the completion callback of the constraint builder runs, every constraint search started for nodes whose end was notified before has finished, each found constraint is contained in exactly one callback result in the order the searches were started, and the callback runs exactly once per request.","quantifier":"all call sequences and thread schedules","why_tests_cant":"Ranges over all schedules of the worker pool.","anchors":["cartographer/mapping/internal/constraints/constraint_builder_2d.cc:ConstraintBuilder2D"]}
{"id":"C43","title":"Configuration dictionaries detect unused and doubly used keys","statement":"Destroying a reference-counted parameter dictionary aborts unless every string key it contains was read exactly once; reading a missing key aborts; asking whether a key exists never counts as a use.","quantifier":"all dictionaries and access sequences","why_tests_cant":"All access sequences over all tables.","anchors":["cartographer/common/lua_parameter_dictionary.cc:LuaParameterDictionary::CheckHasKeyAndReference,LuaParameterDictionary::CheckAllKeysWereUsedExactlyOnceAndReset"]}
{"id":"C44","title":"Serialized pose graph is self-contained","statement":"In the serialized pose graph every constraint refers to a submap and a node that are serialized with it, every trajectory id occurs at most once, and with unfinished submaps excluded no unfinished submap nor a constraint to one is written.","quantifier":"all pose graphs with referential integrity","why_tests_cant":"All graphs and all finished/unfinished patterns.","anchors":["cartographer/mapping/pose_graph.cc:PoseGraph::ToProto"]}
{"id":"C45","title":"Time conversion is exact and order preserving","statement":"Converting a time to universal ticks and back is the identity, preserves order and differences, and conversion from milliseconds or seconds to durations is exact up to one tick.","quantifier":"all 64 bit tick values","why_tests_cant":"2^64 values.","anchors":["cartographer/common/time.cc:FromUniversal,ToUniversal,FromSeconds,FromMilliseconds,ToSeconds"]}
{"id":"C46","title":"Uploaded sensor data keeps order and gets translated ids","statement":"The data accepted by the uplink server is a subsequence of the enqueued data in order, each in a batch of exactly the configured size, and every trajectory id in it has been replaced by the uplink id registered for its trajectory; data enqueued before an orderly shutdown is not lost.","quantifier":"all enqueue sequences, all connection failures","why_tests_cant":"All failure points and recoveries.","anchors":["cartographer/cloud/internal/local_trajectory_uploader.cc:LocalTrajectoryUploader::ProcessSendQueue,LocalTrajectoryUploader::TryRecovery,LocalTrajectoryUploader::TranslateTrajectoryId"]}
{"id":"C47","title":"Histogram rows account for every value","statement":"In the printed histogram every added value is counted in exactly one row, so the total of the last row equals the number of values.","quantifier":"all value lists, all bucket counts >= 1","why_tests_cant":"All real inputs and bucket counts.","anchors":["cartographer/common/histogram.cc:Histogram::ToString"]}
{"id":"C48","title":"Signed distance insertion stays within the grown map and its limits","statement":"Inserting range data into a truncated signed distance map never touches a cell outside the map it has just grown, keeps every stored distance within the truncation band and every weight between 0 and the maximum, and each cell's new distance lies between its old distance and the observation.","quantifier":"all maps, scans and options","why_tests_cant":"Continuum of geometries; the failure is a process abort.","anchors":["cartographer/mapping/internal/2d/tsdf_range_data_inserter_2d.cc:GrowAsNeeded,TSDFRangeDataInserter2D::InsertHit,TSDFRangeDataInserter2D::UpdateCell","cartographer/mapping/internal/2d/tsdf_2d.cc:TSDF2D::SetCell"]}
{"id":"C49","title":"3D precomputation grids bound every finer candidate","statement":"At every depth of the 3D precomputation stack the value of a voxel is at least the value of every original voxel in the window it represents, including after switching to half resolution.","quantifier":"all grids, depths, full-resolution depths and voxels","why_tests_cant":"All grids and all depth combinations, with negative index division.","anchors":["cartographer/mapping/internal/3d/scan_matching/precomputation_grid_3d.cc:PrecomputeGrid","cartographer/mapping/internal/3d/scan_matching/fast_correlative_scan_matcher_3d.cc:PrecomputationGridStack3D"]}
{"id":"C50","title":"Submap uploads are assembled consistently","statement":"On the server side a submap is created exactly when its first range data arrives, updates to a submap that was never announced are ignored without effect, and a finished submap is handed out complete and then forgotten.","quantifier":"all sequences of submap messages","why_tests_cant":"All message histories including lost beginnings.","anchors":["cartographer/mapping/internal/submap_controller.h:SubmapController::UpdateSubmap"]}
{"id":"C51","title":"Adaptive voxel filtering terminates with enough points whenever a tried length gives enough","statement":"The adaptive voxel filter always terminates without failing; its result is a subsequence of the points within range; if the cropped cloud is small enough already it is returned unchanged; otherwise the result is the cloud filtered with an edge length between 1/128 of the maximum and the maximum, and it has at least the requested number of points unless all tried edge lengths (maximum, maximum/2, ..., maximum/128) give fewer.","quantifier":"all point clouds, all maximum lengths, minimum counts and ranges, all random choices","why_tests_cant":"Termination of the binary search and the bound on the result for every cloud and every random outcome.","anchors":["cartographer/sensor/internal/voxel_filter.cc:AdaptivelyVoxelFiltered,AdaptiveVoxelFilter"]}
{"id": "C52", "title": "Waiting for all computations of the pose graph is complete and does not abort", "statement": "If nobody adds nodes or work items while WaitForAllComputations runs, then no CHECK of the pose graph's work queue or of its constraint builder fails, every search the pose graph starts is notified, completes, and its constraint is delivered; when the wait is over all work items, optimizations and searches are done, the number of finished nodes equals the number of nodes added, and the destructor CHECKs of the constraint builder hold.  Without new work the pool cannot run for ever.", "quantifier": "all interleavings of adding threads, the worker pool, the constraint builder tasks, trimming and waiting", "why_tests_cant": "Ranges over all schedules of two cooperating components and all numbers of nodes, searches and optimizations.", "anchors": ["cartographer/mapping/internal/2d/pose_graph_2d.cc:PoseGraph2D::WaitForAllComputations,PoseGraph2D::DrainWorkQueue,PoseGraph2D::HandleWorkQueue,PoseGraph2D::ComputeConstraintsForNode", "cartographer/mapping/internal/constraints/constraint_builder_2d.cc:ConstraintBuilder2D"]}
{"id": "C53", "title": "Three-dimensional branch and bound is optimal under the low resolution check", "statement": "For every map, every list of discretized scans, every window and every branch-and-bound and full-resolution depth, the fast 3D matcher either reports no match, exactly if no pose of the window that passes the low-resolution check scores above the minimum, or a pose with the highest score of all poses that pass, with that score; the score of a coarse candidate is never below that of a pose it stands for, although the cell indices are shifted before the search window offset is added.", "quantifier": "all hybrid grids, all scans and windows, all depths and full-resolution depths, every sorting of ties, every low-resolution scoring function", "why_tests_cant": "The bound depends on the interplay of negative index shifts, alignment of candidates with the window start and halved resolutions; a unit test compares a handful of poses with random grids and cannot show that no pose of the window is pruned wrongly.", "anchors": ["cartographer/mapping/internal/3d/scan_matching/fast_correlative_scan_matcher_3d.cc", "cartographer/mapping/internal/3d/scan_matching/precomputation_grid_3d.cc"]}
{"id": "C54", "title": "Submaps are replicated on the uplink server", "statement": "When local SLAM results are uploaded to another server, for every number of range data per submap and every sequence of insertions, the receiver ends up with exactly the submaps of the sender, in order, each finished exactly if the sender's is and with its grid, and calls AddNode for each node with exactly the submaps the node was inserted into on the sender and with the same announcement that a submap became finished.", "quantifier": "all numbers of trajectories, all interleavings of insertions, all submap sizes, both dimensions", "why_tests_cant": "The index of a submap is reconstructed from a counter and from finished flags over an unbounded history of insertions; tests upload a handful of results of one trajectory.", "anchors": ["cartographer/cloud/internal/map_builder_server.cc:MapBuilderServer::OnLocalSlamResult", "cartographer/cloud/internal/sensor/serialization.cc:CreateSensorDataForLocalSlamResult", "cartographer/mapping/internal/2d/local_slam_result_2d.cc", "cartographer/mapping/internal/3d/local_slam_result_3d.cc", "cartographer/mapping/internal/submap_controller.h"]}
{"id": "C55", "title": "Motion with constant velocity is extrapolated exactly", "statement": "If poses on a straight line, moving with a constant velocity, are added to the pose extrapolator at increasing times, covering at least the duration of its pose queue, then extrapolating to any other time (for which the call returns and which is not the cached one) gives the exact position on the line, whatever the rotations, the IMU data, the number of poses and the extrapolations in between; no odometry is used.", "quantifier": "all lines and velocities, all histories of pose, IMU and extrapolation calls, all times", "why_tests_cant": "The queue is trimmed depending on the spacing of arbitrarily many poses; a trimming rule that is off by one only shows for certain spacings.", "anchors": ["cartographer/mapping/pose_extrapolator.cc:PoseExtrapolator::AddPose,PoseExtrapolator::UpdateVelocitiesFromPoses,PoseExtrapolator::ExtrapolateTranslation"]}
{"id": "C56", "title": "The pose graph contains exactly what local SLAM did", "statement": "If trajectory builders call AddNode with the submaps of ActiveSubmaps, add sensor data and at last finish the trajectory, for any number of trajectories, any number of range data per submap and any interleaving of callers, worker, constraint searches and optimizations, no CHECK of the pose graph fails, and whenever no work item is pending the graph contains for each trajectory exactly the nodes added, a submap for every n-th node with exactly the nodes inserted into it, finished exactly if it is full or the trajectory is finished, and exactly one INTRA_SUBMAP constraint for each node and submap containing it.", "quantifier": "all numbers of trajectories, all submap sizes, all interleavings of an unbounded number of steps", "why_tests_cant": "Submap ids are assigned from a submap pointer to id table and the size of the optimization problem's data; whether they agree depends on the history of all trajectories and on the order in which work items run. Tests add a few nodes of one trajectory.", "anchors": ["cartographer/mapping/internal/2d/pose_graph_2d.cc:PoseGraph2D::AppendNode,PoseGraph2D::InitializeGlobalSubmapPoses,PoseGraph2D::ComputeConstraintsForNode,PoseGraph2D::FinishTrajectory", "cartographer/mapping/2d/submap_2d.cc:ActiveSubmaps2D::InsertRangeData", "cartographer/mapping/internal/global_trajectory_builder.cc"]}
{"id": "C57", "title": "Constraints are searched once for every node and finished submap", "statement": "With local SLAM trajectories as in C56, the constraint builder is asked at most once for a pair of a node and a submap, only for finished submaps that do not contain the node; once all work has run it has been asked for every node and every full submap not containing the node; for a submap that is finished only by FinishTrajectory it has been asked exactly for the nodes of other trajectories that were processed after that call.", "quantifier": "all numbers of trajectories, all submap sizes, all interleavings of an unbounded number of steps", "why_tests_cant": "A pair is searched either when the node is processed or when the submap becomes finished, depending on the order of processing across trajectories; a missing or double search only shows in particular orders and changes nothing but the quality of the map.", "anchors": ["cartographer/mapping/internal/2d/pose_graph_2d.cc:PoseGraph2D::ComputeConstraintsForNode,PoseGraph2D::ComputeConstraint,PoseGraph2D::FinishTrajectory"]}
{"id": "C58", "title": "Nodes not yet optimized stay aligned with their trajectory", "statement": "A node of a trajectory that has no initial pose relative to another one and was not included in an optimization yet has exactly the global pose that the current local-to-global transform of its trajectory gives its local pose, before and after every optimization, provided no optimization finishes between AddNode reading the transform and adding the node.", "quantifier": "all trajectories, all interleavings of an unbounded number of AddNode calls, work items and optimizations, all results of the solver", "why_tests_cant": "The extrapolation only matters for nodes added while an optimization was being computed; which nodes these are depends on timing, and a wrong transform shows as a temporary displacement that the next optimization removes.", "anchors": ["cartographer/mapping/internal/2d/pose_graph_2d.cc:PoseGraph2D::AddNode,PoseGraph2D::AppendNode,PoseGraph2D::RunOptimization,PoseGraph2D::ComputeLocalToGlobalTransform,PoseGraph2D::InitializeGlobalSubmapPoses,PoseGraph2D::ComputeConstraintsForNode"]}
{"id": "C59", "title": "Frozen trajectories and the first submap do not move", "statement": "Nodes of a trajectory that is frozen before being loaded keep exactly the loaded global pose and its submaps keep the projection of the loaded pose, whatever is added to other trajectories and however often the graph is optimized, provided no optimization runs while parts of the trajectory wait in the work queue; submap (0, 0) never moves once it is in the optimization problem.", "quantifier": "all loaded trajectories, all interleavings of an unbounded number of steps, all results of the solver that keep the constant parameter blocks", "why_tests_cant": "A frozen map that drifts is only noticed after many optimizations in localization mode; the poses go through a projection, the solver and two transfers, with other trajectories changing in between.", "anchors": ["cartographer/mapping/internal/2d/pose_graph_2d.cc:PoseGraph2D::FreezeTrajectory,PoseGraph2D::AddSubmapFromProto,PoseGraph2D::AddNodeFromProto,PoseGraph2D::RunOptimization", "cartographer/mapping/internal/optimization/optimization_problem_2d.cc:OptimizationProblem2D::Solve,OptimizationProblem2D::InsertSubmap,OptimizationProblem2D::InsertTrajectoryNode"]}
{"id": "C60", "title": "The optimization problem contains exactly the intended residuals", "statement": "Whenever constraints refer to existing nodes and submaps and every landmark observation belongs to a trajectory with nodes (and was not made exactly at its only node), Solve does not abort and hands to the solver exactly one residual per constraint, per landmark observation made between the first and the last node of its trajectory (attached to the two neighbouring nodes), per pair of nodes with consecutive indices in a trajectory that is not frozen, one more for such a pair when odometry is available at both times (with the relative odometry pose), and one per node at whose time a fixed frame pose is available. Exactly the first submap and what is frozen is constant. The relative odometry along a chain of nodes multiplies to the odometry between its ends.", "quantifier": "all reachable contents of the optimization problem, all constraints, landmarks and frozen trajectories, all results of the solver", "why_tests_cant": "The loops advance several iterators over trajectories with gaps left by trimming; a residual that is missing, counted twice or attached across trajectories only shows as slightly worse maps.", "anchors": ["cartographer/mapping/internal/optimization/optimization_problem_2d.cc:OptimizationProblem2D::Solve,AddLandmarkCostFunctions,OptimizationProblem2D::InterpolateOdometry,OptimizationProblem2D::CalculateOdometryBetweenNodes,Interpolate"]}
{"id": "C61", "title": "Trimming a node does not change the residuals of the others", "statement": "In every reachable state with increasing node times, TrimTrajectoryNode does not abort and removes exactly that node; a later optimization has exactly the local SLAM, odometry and fixed frame residuals of before that do not involve the node, with the same relative poses, although sensor data was deleted.", "quantifier": "all reachable contents of the optimization problem, all nodes, all sensor data", "why_tests_cant": "Which sensor data may be dropped depends on the neighbours of the gap; dropping one reading too many changes a residual of a node that stays, visible only for particular spacings of nodes and readings.", "anchors": ["cartographer/mapping/internal/optimization/optimization_problem_2d.cc:OptimizationProblem2D::TrimTrajectoryNode", "cartographer/sensor/map_by_time.h:MapByTime::Trim"]}
{"id": "C62", "title": "Subscribers of the map builder server get every message once and in order", "statement": "In every interleaving of requests, SLAM rounds, optimizations and subscriptions, a connection subscribed to the local SLAM results of a trajectory (or to global optimizations) is written exactly the results published for that trajectory (the optimizations) and the notice that it finished, each once and in order, from when it subscribed until it closed; a connection that refuses a message only loses its own subscription; no request of a client aborts the server.", "quantifier": "all executions with any number of clients, trajectories, subscribers, any SLAM results and any connections that refuse messages", "why_tests_cant": "Subscriptions are added and removed by RPC threads while the SLAM thread iterates over them; the existing tests have one subscriber and no failing connection.", "anchors": ["cartographer/cloud/internal/map_builder_server.cc:MapBuilderServer::OnLocalSlamResult,MapBuilderServer::OnGlobalSlamOptimizations,MapBuilderServer::SubscribeLocalSlamResults,MapBuilderServer::UnsubscribeLocalSlamResults,MapBuilderServer::NotifyFinishTrajectory", "cartographer/cloud/internal/handlers/receive_local_slam_results_handler.cc", "cartographer/cloud/internal/handlers/receive_global_slam_optimizations_handler.cc", "cartographer/cloud/internal/handlers/finish_trajectory_handler.cc"]}
{"id": "C63", "title": "Clients of the map builder server only reach their own trajectories", "statement": "In every execution each trajectory created through the server has exactly one client, the one whose request created it; what its trajectory builder was given followed by what still waits in the queue is exactly the data this client sent for the trajectory, in order and each item once, whatever other clients send; trajectories no client created get no data.", "quantifier": "all executions with any number of clients, trajectories and data, including data for unknown trajectories and trajectories of other clients", "why_tests_cant": "Needs all interleavings of several clients with the shared queue of incoming data.", "anchors": ["cartographer/cloud/internal/map_builder_context_impl.h:MapBuilderContext::RegisterClientIdForTrajectory,MapBuilderContext::CheckClientIdForTrajectory", "cartographer/cloud/internal/handlers/add_sensor_data_handler_base.h", "cartographer/cloud/internal/handlers/add_sensor_data_batch_handler.cc", "cartographer/cloud/internal/map_builder_server.cc:MapBuilderServer::ProcessSensorDataQueue"]}
{"id": "C64", "title": "Local SLAM does not abort on data in order of time", "statement": "For every sequence of IMU, odometry and range data in order of time (odometry strictly so, range data with valid point times) and every behaviour of the scan matcher and the voxel filters, the 2D and the 3D local trajectory builder process everything without a failed CHECK and without reading an empty queue; the only exception is the CHECK on the direction of gravity in the IMU tracker (C41).", "quantifier": "all sequences of sensor data of any number of sensors, all scan matcher and filter results, all options", "why_tests_cant": "Dropped scans, scans that accumulate, late sensors and the caches of the extrapolator interact; a CHECK depends on the order in which data of sensors with different delays arrives.", "anchors": ["cartographer/mapping/internal/2d/local_trajectory_builder_2d.cc:LocalTrajectoryBuilder2D::AddRangeData,LocalTrajectoryBuilder2D::AddImuData,LocalTrajectoryBuilder2D::AddOdometryData,LocalTrajectoryBuilder2D::InitializeExtrapolator", "cartographer/mapping/internal/3d/local_trajectory_builder_3d.cc:LocalTrajectoryBuilder3D::AddRangeData,LocalTrajectoryBuilder3D::AddImuData,LocalTrajectoryBuilder3D::AddOdometryData", "cartographer/mapping/pose_extrapolator.cc"]}
{"id": "C65", "title": "Every range measurement reaches the scan matcher once", "statement": "The scans that the collator delivers and that are not empty are, in order, a prefix that is dropped, groups of exactly num_accumulated_range_data scans and less than one group that still waits; for every group the points passed on are exactly the hits of its rays with a distance in [min_range, max_range] as returns and the points at the configured distance on its longer rays as misses, each moved by the pose extrapolated for the time of that point, in order; each group gives at most one result, with the time of its last scan, and results come in order of time.", "quantifier": "all sequences of sensor data in order of time, all options, all scan matcher and filter results", "why_tests_cant": "Needs all ways in which scans are dropped and accumulated, with any number of points per scan and poses per point.", "anchors": ["cartographer/mapping/internal/2d/local_trajectory_builder_2d.cc:LocalTrajectoryBuilder2D::AddRangeData,LocalTrajectoryBuilder2D::AddAccumulatedRangeData", "cartographer/mapping/internal/3d/local_trajectory_builder_3d.cc:LocalTrajectoryBuilder3D::AddRangeData,LocalTrajectoryBuilder3D::AddAccumulatedRangeData"]}
{"id": "C66", "title": "A points pipeline writes exactly the points that its filters keep", "statement": "For every pipeline of points processors without outlier removal, or with one that is preceded by stages that support several passes, and every stream of batches with one or no colour and intensity per point: reading the stream until Flush reports that it is finished takes one pass or three; every filter passes on exactly the points of its criterion with their colours and intensities, in order (the sampler those where the rounded share changes, the outlier removal those in voxels with fewer rays than the limit times the hits, counted over the whole stream that reaches it); a counting stage has counted each point that reached it once; the XYZ, PLY and PCD files contain a header with the true number of points and one record for each point that reached the writer, in order.", "quantifier": "all pipelines of that shape, all streams, all options, all norms and encodings of numbers", "why_tests_cant": "Stages, passes, resets between passes, headers that are overwritten and columns that have to stay aligned combine in unboundedly many ways; the existing tests cover single stages with a few points.", "anchors": ["cartographer/io/points_processor_pipeline_builder.cc:PointsProcessorPipelineBuilder::CreatePipeline", "cartographer/io/points_batch.cc:RemovePoints", "cartographer/io/outlier_removing_points_processor.cc", "cartographer/io/ply_writing_points_processor.cc", "cartographer/io/pcd_writing_points_processor.cc", "cartographer/io/xyz_writing_points_processor.cc", "cartographer/io/fixed_ratio_sampling_points_processor.cc", "cartographer/io/file_writer.cc:StreamFileWriter"]}
{"id": "C67", "title": "The pass protocol of points pipelines ends, and only sound pipelines finish", "statement": "For every pipeline and every stream, at most three passes are made before the run finishes or aborts. If it finishes, the pipeline has at most one outlier removal and only stages that support several passes are before it, and every PLY writer was given at least one point: no file is ever written from more than one pass.", "quantifier": "all pipelines, all streams, all numbers of passes", "why_tests_cant": "A statement about all configurations; tests run a handful of them.", "anchors": ["cartographer/io/points_processor.h:PointsProcessor::FlushResult", "cartographer/io/outlier_removing_points_processor.cc:OutlierRemovingPointsProcessor::Flush", "cartographer/io/ply_writing_points_processor.cc:PlyWritingPointsProcessor::Flush", "cartographer/io/counting_points_processor.cc:CountingPointsProcessor::Flush"]}
{"id": "C68", "title": "A submap texture shows every known cell of a 2D grid, with its value, where it is", "statement": "For every well-formed grid without pending updates, DrawToSubmapTexture succeeds and unpacking its texture gives one pixel per cell of the cropped grid: the pixel is marked as observed exactly if the cell is known, and then its two bytes give the integer log odds (or the distance faded by the weight for a signed distance grid), which lie in [1, 255], grow with the probability and reach both ends; every known cell has a pixel. For planar poses the centre of the pixel is painted exactly at the position of the centre of the cell moved from the local frame through the submap frame to the global one, with y upwards.", "quantifier": "all grids, all cells, all planar submap poses and resolutions", "why_tests_cant": "The layout of the texture, its orientation (x and y exchanged and flipped), the offset of the cropped grid and the two poses have to agree in four files; the tests do not draw textures of grids.", "anchors": ["cartographer/mapping/2d/probability_grid.cc:ProbabilityGrid::DrawToSubmapTexture", "cartographer/mapping/internal/2d/tsdf_2d.cc:TSDF2D::DrawToSubmapTexture", "cartographer/mapping/submaps.h:ProbabilityToLogOddsInteger", "cartographer/io/submap_painter.cc:UnpackTextureData,DrawTexture,FillSubmapSlice,CairoPaintSubmapSlices"]}
{"id": "C69", "title": "The X-ray view of a 3D submap shows its columns", "statement": "AddToTextureProto succeeds for every submap; every obstructed cell is in the texture; the pixel of a column is observed exactly if the column has two obstructed cells with a distance of three or more in z, and then shows the log odds of the average of its obstructed cells and the free space between them; the pixel is painted where the column is.", "quantifier": "all hybrid grids, all submap poses", "why_tests_cant": "Depends on all values of a grid and on poses; no test draws 3D submaps.", "anchors": ["cartographer/mapping/3d/submap_3d.cc:ExtractVoxelData,AccumulatePixelData,ComputePixelValues,AddToTextureProto"]}
{"id": "C70", "title": "The painted map contains every slice completely", "statement": "PaintSubmapSlices draws every slice that has a surface, and all points of the drawn slices are in the image, at least five pixels from its border, whatever their poses.", "quantifier": "all sets of slices, all poses (also tilted ones), all resolutions", "why_tests_cant": "The bounding box is computed from four corners; that this is enough for all affine maps needs an argument. Which slices have a surface depends on the order in which they are fetched.", "anchors": ["cartographer/io/submap_painter.cc:CairoPaintSubmapSlices,PaintSubmapSlices"]}
{"id": "C71", "title": "Residuals for relative poses vanish exactly at the observation, do not depend on the frame, and have the right derivatives", "statement": "Every residual of the optimization for an observed relative pose (in the plane and in space) is zero if and only if the second pose is the first one followed by the observed relative pose, as motions of all points and for all nonzero weights; it is unchanged if both poses are moved by the same motion; the hand-written Jacobian of the cost function in the plane is the derivative of its residuals in all six parameters, and its residuals are those of the automatically differentiated cost function.", "quantifier": "all poses, observations, nonzero weights, directions in parameter space; for the derivative of the angle residual all poses where the normalized angle is not ±π", "why_tests_cant": "The tests compare the two cost functions at one pose; a wrong sign in a Jacobian entry, or angles that differ by full turns, show up only at other poses.", "anchors": ["cartographer/mapping/internal/optimization/cost_functions/cost_helpers_impl.h", "cartographer/mapping/internal/optimization/cost_functions/spa_cost_function_2d.cc", "cartographer/mapping/internal/optimization/cost_functions/spa_cost_function_3d.h", "cartographer/common/math.h"]}
{"id": "C72", "title": "Landmark observations are compared with a pose on the shortest path between the nodes", "statement": "For an observation between two nodes the interpolation parameter is in [0, 1]; the interpolated pose is the pose of the node at the ends, its rotation is on the shorter arc at constant speed and has norm one (up to 0.000005 for rotations that are almost the same); the interpolation in the plane is that of the embedded poses; interpolation commutes with motions of the frame and does not depend on the signs of the quaternions; the residuals are zero exactly if the landmark is where it was observed from the interpolated pose, and do not depend on the frame.", "quantifier": "all poses of nodes and landmarks, all observations, all interpolation parameters", "why_tests_cant": "The tests evaluate the interpolation at a few poses; constant speed, the choice of the shorter arc and independence of the frame are statements about all of them.", "anchors": ["cartographer/mapping/internal/optimization/cost_functions/cost_helpers_impl.h", "cartographer/mapping/internal/optimization/cost_functions/landmark_cost_function_2d.h", "cartographer/mapping/internal/optimization/cost_functions/landmark_cost_function_3d.h"]}
{"id": "C73", "title": "Inertial measurements are integrated with the latest measurement at each time, and constant motions exactly", "statement": "For measurements in the order of their times, integration aborts only if the times are not in order or the iterator is not at the last measurement before the start, so that consecutive integrations never abort; at each time the latest measurement is used; integrating in two parts that meet at a measurement gives the combination of the parts; for constant angular velocity the rotation is exact, for constant acceleration the velocity and the translation are exact, so that a body at rest stays where it is; the residuals for rotation and acceleration vanish at the true poses of a body with constant acceleration.", "quantifier": "all sorted sequences of measurements, all start and end times, all positions of the iterator, all poses", "why_tests_cant": "The tests integrate a few constant sequences at fixed rates; which measurement is used for which part of an interval and the error for arbitrary spacings are statements about all sequences.", "anchors": ["cartographer/mapping/internal/3d/imu_integration.h", "cartographer/mapping/internal/optimization/optimization_problem_3d.cc", "cartographer/mapping/internal/optimization/cost_functions/rotation_cost_function_3d.h", "cartographer/mapping/internal/optimization/cost_functions/acceleration_cost_function_3d.h"]}
{"id": "C74", "title": "The real-time correlative scan matcher returns the best pose of its window", "statement": "For a nonempty scan on a probability grid, and for any scan on a truncated signed distance grid, the matcher never fails a check. The result is a pose of the window (initial pose plus multiples of the resolution and of the angular step) whose score is maximal among all poses of the window; the score is the mean probability (weighted mean nearness to a surface) of the cells of the turned scan shifted by whole cells, times a discount in (0, 1]; unless a point lies on the border of two cells these are the cells of the scan at that pose. Every offset of the window is within half a cell and half an angular step of a compared one, and one angular step moves no point of the scan by more than a cell. With an empty scan on a probability grid the check of the score fails.", "quantifier": "all well-formed grids, all scans, initial poses, windows and weights", "why_tests_cant": "The tests match one small cloud; optimality over the window compares with all candidates for every grid and every scan, and the angular step has to suit every range.", "anchors": ["cartographer/mapping/internal/2d/scan_matching/real_time_correlative_scan_matcher_2d.cc", "cartographer/mapping/internal/2d/scan_matching/correlative_scan_matcher_2d.cc", "cartographer/mapping/internal/2d/scan_matching/correlative_scan_matcher_2d.h"]}
{"id": "C75", "title": "The real-time correlative scan matcher in 3D returns the best candidate of its window", "statement": "For a nonempty scan and windows that are not negative the matcher never fails a check and returns the candidate of the window with the largest product of the mean probability of the voxels of the points and the discount for translation and angle; the score is in (0, 0.9]; every translation and rotation vector of the window is within half a voxel and half an angular step, per coordinate, of a compared one; the angle of the discount is the length of the rotation vector. With an empty scan the check of the score fails, and with a negative window the pose is left alone with a negative score.", "quantifier": "all well-formed hybrid grids, all scans, initial poses, windows and weights", "why_tests_cant": "The tests match one small cloud with a handful of offsets; the claim compares with all candidates for every grid and scan.", "anchors": ["cartographer/mapping/internal/3d/scan_matching/real_time_correlative_scan_matcher_3d.cc"]}
{"id": "C76", "title": "Interpolation of a hybrid grid is a C1 field through the values of the voxels", "statement": "For every grid and point the interpolated value is a tensor product of one-dimensional cubic interpolations between the eight voxel centres around the point. It equals the value of the voxel at its centre, lies between the bounds of the values of all voxels, is continuously differentiable in the point everywhere (also across voxel borders), has the derivative of the cubic scheme with respect to each coordinate, and a vanishing gradient at voxel centres.", "quantifier": "all well-formed hybrid grids, all resolutions above zero, all points of space", "why_tests_cant": "The tests sample points in one grid and compare them with the centres; differentiability and bounds at all points of all grids are statements about a continuum.", "anchors": ["cartographer/mapping/internal/3d/scan_matching/interpolated_grid.h"]}
{"id": "C77", "title": "The problem of the scan matcher in 3D: total, smooth and bounded, so that a better pose is near the initial one", "statement": "The occupied space residuals exist for every pose, are scale times one minus the interpolated probability, are continuously differentiable in position and lie in [0.1, 0.9] times the scale. The translation and rotation residuals vanish just at the target translation and rotation. The problem is built just if there is one positive weight per cloud and positive translation and rotation weights; every proper pose that costs no more than the initial one differs from target and initial rotation by a bound of the weights alone. The yaw-only parameterization leaves the direction of gravity alone; a step of the constant-yaw parameterization keeps the norm, except that steps shorter than 1e-6 increase its square by the square of the step, and leaves its horizontal axis in place.", "quantifier": "all well-formed hybrid grids, clouds, weights, poses and solver results that do not cost more than the initial pose", "why_tests_cant": "The tests run the solver on one cloud from few initial poses; the bound holds for every map, cloud and result of the solver.", "anchors": ["cartographer/mapping/internal/3d/scan_matching/occupied_space_cost_function_3d.h", "cartographer/mapping/internal/3d/scan_matching/intensity_cost_function_3d.h", "cartographer/mapping/internal/3d/scan_matching/translation_delta_cost_functor_3d.h", "cartographer/mapping/internal/3d/scan_matching/rotation_delta_cost_functor_3d.h", "cartographer/mapping/internal/3d/scan_matching/ceres_scan_matcher_3d.cc", "cartographer/mapping/internal/3d/rotation_parameterization.h"]}
{"id": "C78", "title": "The problem of the scan matcher in 2D: bicubic interpolation of the grid with unknown padding", "statement": "For points within reach of the padded grid the occupied space residual is scale times the convolution of the correspondence costs of the cells with the cubic kernel of Keys: continuously differentiable in the pose, equal to the cost at cell centres, constant at the largest cost away from the grid, and within [-1/8, 9/8], both attained although all costs are in [0.1, 0.9]. The problem is built just if all weights are positive, and a pose that costs no more than the initial one is near target and initial angle by a bound of the weights alone.", "quantifier": "all well-formed probability grids, all point clouds within reach, weights, poses and solver results that do not cost more than the initial pose", "why_tests_cant": "The tests run the solver on one point in one grid; smoothness, bounds of the overshoot and nearness are for all grids and poses.", "anchors": ["cartographer/mapping/internal/2d/scan_matching/occupied_space_cost_function_2d.cc", "cartographer/mapping/internal/2d/scan_matching/ceres_scan_matcher_2d.cc", "cartographer/mapping/internal/2d/scan_matching/translation_delta_cost_functor_2d.h", "cartographer/mapping/internal/2d/scan_matching/rotation_delta_cost_functor_2d.h"]}
{"id": "C79", "title": "The cost function for truncated signed distance fields", "statement": "The interpolated weight of a point is bilinear interpolation of the weights of the cells, continuous and between zero and the largest weight. The interpolated distance is bilinear interpolation if the four cells around the point are known and the truncation distance otherwise. The residual of a point is scale times distance times the number of points times its share of the weight; the cost function returns false just if no point has weight. The sum of the squares is at most (number of points x scale x truncation distance)^2, a factor that is attained if one point has all the weight. The cost function is discontinuous at the border of the known area.", "quantifier": "all well-formed truncated signed distance fields, point clouds, poses and scales", "why_tests_cant": "The tests interpolate in one small map at sampled points; the jump and the growth with the number of points only show in the formula for all points.", "anchors": ["cartographer/mapping/internal/2d/scan_matching/interpolated_tsdf_2d.h", "cartographer/mapping/internal/2d/scan_matching/tsdf_match_cost_function_2d.cc", "cartographer/mapping/internal/2d/scan_matching/ceres_scan_matcher_2d.cc"]}
{"id": "C80", "title": "Rotated histograms and their comparison", "statement": "RotateHistogram always ends and gives the samples of the linear interpolation of the periodic histogram, displaced by the angle: whole buckets are moved cyclically, half turns change nothing, the number of buckets, their sum and their bounds stay, the norm does not grow, and every bucket is continuous in the angle. Match gives one score in [0, 1] for every angle, one for equal histograms or those without noticeable norm, and the score one of noticeable histograms means that they are proportional.", "quantifier": "all histograms, angles and lists of angles, without bound on the size", "why_tests_cant": "The tests rotate histograms of three or four buckets by a few angles; the rounding of the displacement differs from the floor just at integers that are not positive.", "anchors": ["cartographer/mapping/internal/3d/scan_matching/rotational_scan_matcher.cc", "cartographer/mapping/internal/3d/scan_matching/rotational_scan_matcher.h"]}
{"id": "C81", "title": "Histograms of the directions in a point cloud", "statement": "The histogram of a point cloud has the wanted number of buckets, none negative, with a sum of at most the number of points; every counted value is that of a pair of points of one slice at a distance in [0.2, 0.9], with a weight in [0, 1] that is one less the absolute cosine of the angle to the ray from the centroid, and it is added to the bucket of the angle modulo half a turn. The order of the points, the sorting algorithm and horizontal translations do not matter if no two points of a slice are seen at the same angle. If a sorted slice is rotated by whole buckets, its histogram is rotated, except for directions on the negative axis, which are counted in the last bucket instead of the first; a whole scan rotated by half a turn can have another histogram and a score less than one at the right angle.", "quantifier": "all point clouds, numbers of buckets, sorting functions and rotations by whole buckets", "why_tests_cant": "The tests compare histograms of one or two synthetic clouds with a tolerance; order independence, the exceptional direction and the dependence on the first point of the order concern all clouds.", "anchors": ["cartographer/mapping/internal/3d/scan_matching/rotational_scan_matcher.cc", "cartographer/mapping/internal/3d/scan_matching/rotational_scan_matcher.h"]}
{"id": "C82", "title": "Detection of floors", "statement": "DetectFloors aborts just for a trajectory without nodes, and reads node -1 just if the second node is more than 2.5 m above or below the first. Otherwise the trajectory is cut in the one way in which each node is within 2.5 m of the median of the part before it; parts linked by medians less than a metre apart form a level; each level with a part of at least 25 m of way gives one floor and each floor has such a part. Floors come in ascending order and are at least one metre apart, so that the result does not depend on std::sort. The height of a floor is the median over the nodes of its long parts; its timespans are those of all parts of its level and of adjacent short parts of levels without long part. Each long part is in one floor, once. A short part can be in a floor twice, and can be lost although it is next to a floor.", "quantifier": "all trajectories, distances between nodes and sorting functions", "why_tests_cant": "The test has one synthetic trajectory; the union-find, the order in which short parts are handled, and the first part's missing end are only visible over all shapes of trajectories.", "anchors": ["cartographer/mapping/detect_floors.cc", "cartographer/mapping/detect_floors.h"]}
{"id": "C83", "title": "Relations generated as ground truth", "statement": "GenerateGroundTruth succeeds exactly if there is a first trajectory with nodes, intra-submap constraints are all of trajectory 0 and name submaps in their order, and each loop closure it looks at has valid indices. Its relations are then, in order, those of the loop closures for which a representative node exists, whose way along the trajectory is at least the wanted one and whose expected pose is within the limits of the solution; the expected pose composed with the representative's is the submap's composed with the constraint. The covered distance is the length of the trajectory between the nodes and at least their distance. Moving the whole map does not change the result. Evaluated on the same map, the errors of all relations are within the limits, if no two nodes have the same time.", "quantifier": "all pose graphs with unit quaternions, and all limits", "why_tests_cant": "The tests use two small pose graphs; invariance under all motions, the exact conditions of failure and the round trip through the metrics are statements over all graphs.", "anchors": ["cartographer/ground_truth/autogenerate_ground_truth.cc", "cartographer/ground_truth/autogenerate_ground_truth.h"]}
{"id": "C84", "title": "Metrics of relations", "statement": "The metrics of a pose graph are computed exactly if there is a first trajectory with nodes in the order of time and there are at least two relations. A pose exists for each time, at the ends for times outside. An error is zero exactly if the second pose is the expected one; its parts are the distance of two views of the first position from the second pose, and the angle between the expected and actual pose. Errors do not depend on the frame of the map; the rotational one does not depend on the direction of a relation. Mean and deviation do not depend on the order of relations; the mean lies between the values, the square of the deviation is half the mean squared difference over pairs, and it is zero exactly if all values agree. The mean angle is in [0, 180] degrees, and means of squares are at least squares of means.", "quantifier": "all pose graphs, lists of relations and values", "why_tests_cant": "There is no test of these metrics; the statements are about all values and all transforms.", "anchors": ["cartographer/ground_truth/compute_relations_metrics_main.cc", "cartographer/transform/transform_interpolation_buffer.cc", "cartographer/transform/transform.h"]}
{"id": "C85", "title": "Messages of sensor data and nodes", "statement": "IMU data, odometry, fixed frame poses (with and without a pose), landmark observations and sensor ids are read from messages as they were written. Ids can be read exactly if they are ones that are written. Timed point clouds are read as written if there are no intensities or one for each point, and abort otherwise; points in the field of old messages are read exactly if there are neither new points nor intensities. Range data loses its intensities and nothing else. A node whose points can be stored keeps time, gravity alignment, pose and histogram; its point clouds are those of points rounded to millimetres in some order without intensities; one that has a point out of bounds aborts. A loaded node can be stored again exactly if no coordinate was rounded to -2^23 millimetres, and then only the order of points changes; there is a node that can be stored once only.", "quantifier": "all data, messages and nodes", "why_tests_cant": "Tests convert single values; the nodes that cannot be stored twice and messages with intensities in the wrong number are not tried.", "anchors": ["cartographer/sensor/imu_data.cc", "cartographer/sensor/odometry_data.cc", "cartographer/sensor/landmark_data.cc", "cartographer/sensor/fixed_frame_pose_data.cc", "cartographer/sensor/timed_point_cloud_data.cc", "cartographer/sensor/range_data.cc", "cartographer/mapping/trajectory_node.cc", "cartographer/transform/transform.cc", "cartographer/mapping/trajectory_builder_interface.cc"]}
{"id": "C86", "title": "Matching a scan with a submap in 2D end to end", "statement": "The fast correlative scan matcher gives, for a local search with a window and for a global search, the pose with the highest score among all poses of the raster of its search, if this is above the given minimum, and nothing otherwise. Each pose of the window is within half a step of one of the raster in each coordinate (after the window is rounded up). For a global search no pose of the whole raster of the plane scores more, although only finitely many are tried, if the points are near enough. The score differs from the mean of the values of the cells hit by at most (max - min)/510. A scan without points matches nothing.", "quantifier": "all grids, scans that fit, windows, guesses, orders of candidates given by the sort", "why_tests_cant": "Tests match few scans with few random poses; that no pose is better is not tried.", "anchors": ["cartographer/mapping/internal/2d/scan_matching/fast_correlative_scan_matcher_2d.cc", "cartographer/mapping/internal/2d/scan_matching/correlative_scan_matcher_2d.cc"]}
{"id": "C87", "title": "Which loop closures are searched and what constraints they give", "statement": "The distance compared with the limit is that of node and submap, the same in each frame. For each submap the number of searches among n candidates near enough is the ceiling of ratio times n since its matcher was deleted last, whatever happens for other submaps; candidates far away change nothing. A search gives a constraint exactly if some pose of the search scores above the minimum; the constraint has the ids and weights given and no residual exactly for the refined best pose relative to the submap, in any frame. A global search does not depend on the guess. The pose graph chooses a local search for the same trajectory or for trajectories connected less than a given time ago; otherwise a global one for the share of questions given by the options; trajectories that were never connected are searched locally at times near the epoch. It aborts exactly for submaps that are not finished.", "quantifier": "all sequences of candidates and deletions, all sequences of questions, all histories of connections, all scans and poses", "why_tests_cant": "The tests for constraint builders use one submap and one node; shares over long runs, several submaps, and histories of connections are not tried.", "anchors": ["cartographer/mapping/internal/constraints/constraint_builder_2d.cc", "cartographer/mapping/internal/2d/pose_graph_2d.cc", "cartographer/mapping/internal/trajectory_connectivity_state.cc", "cartographer/common/fixed_ratio_sampler.cc"]}
{"id": "C88", "title": "The two collators deliver the same", "statement": "The collator by trajectory handles each trajectory as if it were alone: what it delivers for a trajectory depends only on the calls for it, whatever happens for others and whenever they are added, and a run aborts exactly if the calls for some trajectory alone abort. For a session in which all trajectories are added first, data comes only for trajectories that have not ended, and each sensor's data comes in the order of time, neither collator aborts; at any time the common collator has delivered for each trajectory a part from the front of what the collator by trajectory has, and once all have ended both have delivered the same. Finishing a trajectory that has ended, also by a flush, aborts with both. Data of sensors that were not announced is ignored. A trajectory without collated sensors aborts at its first data with the collator by trajectory only.", "quantifier": "all sequences of calls, trajectories, sensors, data, orders of hash maps", "why_tests_cant": "Tests run one sequence for each collator with three sensors and never compare the collators.", "anchors": ["cartographer/sensor/internal/collator.cc", "cartographer/sensor/internal/trajectory_collator.cc", "cartographer/sensor/internal/ordered_multi_queue.cc", "cartographer/mapping/map_builder.cc"]}
{"id": "C89", "title": "Rates of sensors are those of the recent data", "statement": "When the wall clock does not go backwards, the events of a rate timer are exactly the pulses within the window before the last pulse, and at least two if there were two; whatever the clock does they are the newest ones, with the last. The rate of two or more events lies between the smallest and the largest rate of single steps, so that a steady sensor has exactly its rate; the logged mean is the inverse of the rate; the deviation of three or more events is a number that is not negative and zero for a steady sensor; the ratio to wall time is the factor by which the data comes faster. The text never fails and is 'unknown' exactly before the second pulse.", "quantifier": "all sequences of pulses, windows and clocks", "why_tests_cant": "The test pulses ten times with a fake clock; it does not see two events, for which the deviation is not a number.", "anchors": ["cartographer/common/internal/rate_timer.h"]}
{"id": "C90", "title": "Sensor data reaches the trajectory builder in order", "statement": "If each expected sensor id gives its data in order of time, then for every interleaving the collated trajectory builder aborts nowhere and gives the collated data to the wrapped builder in order of time, ties in order of sensor ids, each sensor's data in its order and without gaps, and none of sensors that are not expected; landmarks or fixed frame poses that are not collated are given at once, all and in the order in which they come. After the end all data was given but for what is older than the first datum of some expected sensor. The rate timer of each sensor is pulsed exactly for its collated data.", "quantifier": "all options, expected sensors, sequences of data and wall times", "why_tests_cant": "There is no test of the collated trajectory builder; the map builder test uses two sensors in one interleaving.", "anchors": ["cartographer/mapping/internal/collated_trajectory_builder.cc", "cartographer/mapping/internal/collated_trajectory_builder.h", "cartographer/sensor/internal/collator.cc"]}
{"id": "C91", "title": "The global trajectory builder passes everything on", "statement": "For every local trajectory builder the global one gives it exactly the range, IMU and odometry data, in order, and gives the pose graph all IMU, fixed frame and landmark data, the odometry that the motion filter lets through, and one node for each result with insertion, all in the order of the data they come from; the callback is made for each result, with the id of the node exactly if there is one. It goes through exactly if poses are valid, no remote result is among the data, the local builder takes its data and ids belong to the trajectory; without local builder exactly if poses are valid and there is no range data. Behind the collator the local builder gets its data in order of time, and if IMU, odometry and fixed frame data each come from one sensor with increasing times, the pose graph stores them without abort.", "quantifier": "all local trajectory builders, motion filters, sequences and interleavings of data", "why_tests_cant": "Tests of the map builder look at the number of results for one bag of generated data.", "anchors": ["cartographer/mapping/internal/global_trajectory_builder.cc", "cartographer/mapping/internal/collated_trajectory_builder.cc", "cartographer/sensor/map_by_time.h", "cartographer/mapping/internal/optimization/optimization_problem_3d.cc"]}
{"id": "C92", "title": "Normals of scans in 2D", "statement": "The window of samples of each point is a contiguous part of the scan that contains the point, has at most num_normal_samples other points, half before and half after (the odd one after), all closer than the radius, and ends on either side only at the end of the scan, at the limit, or at a point not closer than the radius. There is one normal for each point. A normal encloses at most a right angle with the direction to the sensor unless the contributions of the samples cancel; a point without samples gets exactly the direction to the sensor; if the samples lie on a vertical wall through the point, the normal is exactly perpendicular to it on the side of the sensor. If scan and sensor are turned about the vertical axis and moved, the normals turn with them.", "quantifier": "all scans, sensor origins, numbers of samples, positive radii, rotations and translations", "why_tests_cant": "Tests use hits on a circle, a square and one line with fixed tolerances and one number of samples.", "anchors": ["cartographer/mapping/internal/2d/normal_estimation_2d.cc"]}
{"id": "C93", "title": "The search for loop closures in 3D finds the best candidate", "statement": "For every matcher of a submap and scan with points the search completes. It reports a match exactly if some candidate (angle of the window, offset of the window) whose histogram score and whose mean probability in the low resolution grid reach their minima scores above the minimum, and then the pose and all scores of one with the highest score. The score is the mean probability of the voxels of the scan up to half a step of the 256 values; the voxels are those of the points moved by the candidate's pose unless a coordinate is exactly on a border. Candidates are the scan turned about the vertical axis through its origin; from one angle to the next no point moves by more than a voxel, and every angle of the window, for a whole submap every direction, is at most half a step from one that is tried. With a minimum score not below 0.1 the search in the whole submap is optimal among all offsets.", "quantifier": "all grids in a proper state, scans, poses, windows, thresholds, orders of equal candidates", "why_tests_cant": "Tests match one small generated cloud at random poses and check that the pose found is near; they cannot show that no better candidate was pruned or lies outside the window.", "anchors": ["cartographer/mapping/internal/3d/scan_matching/fast_correlative_scan_matcher_3d.cc", "cartographer/mapping/internal/3d/scan_matching/low_resolution_matcher.cc", "cartographer/mapping/internal/3d/scan_matching/precomputation_grid_3d.h"]}
{"id": "C94", "title": "Loop closure constraints in 3D", "statement": "A local match depends on the poses of node and submap only up to a common translation and turn about the vertical axis, a global one on their rotations only. If the submap is turned about the vertical axis only, each candidate is compared with the histogram turned to the candidate's own yaw. A constraint is added exactly if there is a match; it names the submap and the node, has the weights of the options, and its pose is the refined pose of the best candidate. The CHECKs never fail for valid ids. A scan without points is never matched. Which candidates are searched for depends on the distance of the two poses and the sampler of the submap exactly as in 2D.", "quantifier": "all matchers, scans, poses, options, refinements", "why_tests_cant": "The test of the constraint builder uses a submap and a scan with one point and looks at the number of constraints.", "anchors": ["cartographer/mapping/internal/constraints/constraint_builder_3d.cc", "cartographer/mapping/internal/3d/scan_matching/fast_correlative_scan_matcher_3d.cc"]}
{"id": "C95", "title": "Histograms of 3D submaps and their migration", "statement": "While mapping, the histogram of the i-th submap of a trajectory is the sum of the histograms of the nodes i*n to (i+2)*n-1, each turned into the submap by the yaw between its gravity aligned frame and the submap. Migrating a state saved without histograms aborts exactly if a node or submap of a constraint within a submap is missing; otherwise each submap gets the sum of the contributions of the nodes it has such a constraint with, independent of the order of constraints, and nothing else changes. For a state saved after mapping, whatever constraints between submaps it has, the migrated submaps are exactly those of mapping.", "quantifier": "all trajectories, poses, gravity directions, histograms, orders of constraints", "why_tests_cant": "The test migrates one submap with one node and compares with a fixed vector.", "anchors": ["cartographer/io/serialization_format_migration.cc", "cartographer/mapping/3d/submap_3d.cc"]}
{"id": "C96", "title": "Migration of whole streams", "statement": "Migrating a well-formed stream never aborts, whatever the worker threads do. All nodes and all (or all finished) submaps are written, with migrated histograms if the stream is of version 1. All constraints, landmark poses and data of the stream are written if the worker threads have run all work items before the pose graph is first read. A stream whose trajectories are not numbered 0, 1, ... is rejected.", "quantifier": "all streams, all interleavings of the worker threads with the writer", "why_tests_cant": "The test has no constraints between its read and write that could be lost visibly, and one timing per run; a loss depends on the scheduling.", "anchors": ["cartographer/io/serialization_format_migration.cc", "cartographer/io/internal/mapping_state_serialization.cc", "cartographer/mapping/internal/3d/pose_graph_3d.cc"]}
{"id": "C97", "title": "A map behind a client stub", "statement": "What the client stub returns for the poses of submaps and nodes, the states of trajectories, landmark poses, constraints, the transform from local to global, the sensors of a trajectory and local SLAM results is what the map builder on the server has, up to the parts that are not sent. States loaded or saved through the stub are those loaded or saved on the server, whole, in order, with one header, and with the same remapping of trajectories.", "quantifier": "all maps, all states of trajectories, all streams, all remappings", "why_tests_cant": "The tests of stub and server use a mock or one tiny map, compare few fields, and cannot see what is dropped for other maps.", "anchors": ["cartographer/cloud/internal/client/pose_graph_stub.cc", "cartographer/cloud/client/map_builder_stub.cc", "cartographer/cloud/internal/client/trajectory_builder_stub.cc", "cartographer/cloud/internal/handlers/load_state_handler.cc", "cartographer/cloud/internal/handlers/write_state_handler.cc"]}
{"id": "C98", "title": "Sensor data sent through the client stub", "statement": "Each sensor's data reaches the collator on the server in the order in which the client gave it, nothing twice and in the end nothing lost. If the client finishes a trajectory only when all its data has arrived, the collators deliver exactly what they would deliver without the server. A subscriber to a trajectory that has been announced as finished is never told so.", "quantifier": "all programs of a client, all interleavings of streams, handlers and the SLAM thread", "why_tests_cant": "Which stream overtakes which depends on the scheduling of two processes; a test sees one interleaving.", "anchors": ["cartographer/cloud/internal/client/trajectory_builder_stub.cc", "cartographer/cloud/internal/handlers/add_sensor_data_handler_base.h", "cartographer/cloud/internal/map_builder_server.cc", "cartographer/cloud/internal/handlers/finish_trajectory_handler.cc"]}
{"id": "C99", "title": "The pose extrapolator based on inertial measurements", "statement": "Created from measurements in time order, given poses and measurements in time order with at most one pose after each extrapolation that is solved, the extrapolator never aborts. It keeps every measurement that is the latest at some time from its oldest pose on, and its poses are three or within the configured duration. It returns one pose per time, on a line at constant velocity from the newest pose. For exact measurements of a body with constant acceleration the true motion makes all residuals zero, and from that solution the extrapolated pose is the true one.", "quantifier": "all sequences of calls, all measurements and poses, all solvers", "why_tests_cant": "The only test simulates one motion; the checks relate three queues that are trimmed by different rules, and fail only for particular numbers of poses between extrapolations.", "anchors": ["cartographer/mapping/internal/imu_based_pose_extrapolator.cc", "cartographer/mapping/internal/imu_based_pose_extrapolator.h", "cartographer/mapping/internal/3d/imu_integration.h"]}
{"id": "C100", "title": "The mutexes cannot deadlock", "statement": "Whatever number of application threads and worker threads call whatever public functions of the pose graph and the server, with whatever tasks and dependencies, no set of threads ever waits for mutexes held by threads of the same set; behind every thread that waits for a taken mutex there is one that can go on. No mutex is taken again by the thread that holds it, a thread that waits for a condition holds no mutex, and the callback for global optimizations may itself call every public function.", "quantifier": "all numbers of threads, all interleavings, all outcomes of conditions and loops, all task dependencies", "why_tests_cant": "A deadlock needs two threads at particular lines at the same moment; the tests run few threads and never all functions at once.", "anchors": ["cartographer/common/task.cc", "cartographer/common/thread_pool.cc", "cartographer/mapping/internal/constraints/constraint_builder_2d.cc", "cartographer/mapping/internal/2d/pose_graph_2d.cc", "cartographer/mapping/internal/connected_components.cc", "cartographer/cloud/internal/map_builder_server.cc"]}
{"id": "C101", "title": "X-ray images show the points", "statement": "For all batches of points, with or without floors, processing never aborts, and the image of each floor covers the voxels of all points with as few pixels as possible. The pixel of a column of voxels is white if at most one voxel of it contains points of this floor, otherwise it lies between white and the mean color of the points in the column, nearer to that color the more voxels of the column contain points; the order of the points does not matter.", "quantifier": "all sequences of batches, all floors, all saturation factors, all iteration orders of the grid", "why_tests_cant": "The tests compare the content of the aggregation for a few points; they never look at an image.", "anchors": ["cartographer/io/xray_points_processor.cc", "cartographer/io/color.h", "cartographer/io/image.cc"]}
{"id": "C102", "title": "Images and the picture of a probability grid", "statement": "Pixels set in an image can be read back and do not affect others, colors survive the packed format, and a rotation moves every pixel to its place, so that four rotations are the identity. For every sequence of batches the points processor for probability grids writes an image in which every known cell has a pixel with the grey of its probability (never brighter for a more likely obstacle) and every other pixel has the grey for unknown; every point lies on the pixel of the cell that contains it. Trajectory colors follow the usual formula, are never black, and neighbouring numbers have clearly different hues.", "quantifier": "all images, colors and coordinates inside of the image, all sequences of batches, all lookup tables, all trajectory numbers", "why_tests_cant": "The test compares the written bytes with those of the same functions; image and color functions have no tests.", "anchors": ["cartographer/io/image.cc", "cartographer/io/color.cc", "cartographer/io/draw_trajectories.cc", "cartographer/io/probability_grid_points_processor.cc"]}
{"id": "C103", "title": "Configuration options", "statement": "Each function that makes options from a Lua dictionary accepts exactly the tables in which every required key is present with a value of the right type, the checks on the values hold and no other key occurs, and the message has for every field the value under the key of that name. The functions set all fields that the .proto files declare, with values of the declared types, at every level. The shipped configuration is accepted once exactly one kind of trajectory builders is switched on.", "quantifier": "all Lua tables, all conversions between strings and numbers, with and without counting of uses", "why_tests_cant": "Tests use a few dictionaries; a key that is read for the wrong field of the same type, a field that is never set, or a combination that is not rejected shows only for particular tables.", "anchors": ["cartographer/mapping/map_builder_interface.cc", "cartographer/mapping/pose_graph.cc", "cartographer/mapping/trajectory_builder_interface.cc", "cartographer/mapping/internal/3d/scan_matching/ceres_scan_matcher_3d.cc", "cartographer/cloud/map_builder_server_options.cc", "configuration_files/"]}
{"id": "C104", "title": "Quantised probabilities in floating point", "statement": "With every float operation rounded: converting a value in 1..32767 to a float and back gives the same value, for probabilities, correspondence costs, truncated signed distances and weights; the checks in the conversion never fail; changing between probability and cost values maps v to 32768 - v; a table for hits never lowers and a table for misses never raises the probability of a known cell, odds that differ from one by a thousandth move every value that is not at the end, the tables are monotone in the old value, every entry differs by at most one from that of exact arithmetic, and a long run of hits saturates every cell.", "quantifier": "all values, all bounds and odds in a wide range, all rounding modes, with and without contraction of products and sums, all histories of updates", "why_tests_cant": "The tests compare a few values with tolerances; whether rounding errors add up to a step for some value, some odds or some truncation distance depends on the compiler and on 32767 times all parameters.", "anchors": ["cartographer/mapping/probability_values.h", "cartographer/mapping/probability_values.cc", "cartographer/mapping/value_conversion_tables.cc", "cartographer/mapping/internal/2d/tsd_value_converter.h"]}
{"id": "C105", "title": "Cells in floating point", "statement": "With every float and double operation rounded: the centre of a voxel is in the voxel and the centre of a 2D cell is in the cell, up to a million cells from the origin; the index of a point is the one of exact arithmetic except very close to a border, is monotone, and points of one voxel are at most about one edge length apart; compressing a decompressed coordinate gives the same raster point up to 4194 m, and a coordinate moves by at most 0.8 mm within a kilometre.", "quantifier": "all indices and coordinates in range, all resolutions from 2^-60, all rounding modes, with and without contraction of products and sums", "why_tests_cant": "Tests use a few coordinates and resolutions that are kind to binary arithmetic; whether some centre rounds into a neighbouring cell depends on the resolution and on every index.", "anchors": ["cartographer/mapping/2d/map_limits.h", "cartographer/mapping/3d/hybrid_grid.h", "cartographer/sensor/compressed_point_cloud.cc", "cartographer/sensor/internal/voxel_filter.cc"]}
{"id": "C106", "title": "Data races of the pose graph", "statement": "No two threads are ever about to access the same member of the pose graph, the optimization problem, the constraint builder or the active submaps with one of them writing, except in five cases that are named with the function to blame: trajectories_state with AddSubmapFromProto or IsTrajectoryFinished/Frozen, trajectory data of the optimization problem with GetTrajectoryData, the callback with SetGlobalSlamOptimizationCallback, active submaps with the insertion by local SLAM, and constraints when one thread waits in WaitForAllComputations while another gives work. Each of the five races is reachable.", "quantifier": "all interleavings of any number of threads, each calling any of the public functions in any order, with any work items and any number of constraint builder tasks", "why_tests_cant": "A race needs two threads at two places at once; a test runs one schedule, and a race detector reports only what a run happens to do.", "anchors": ["cartographer/mapping/internal/2d/pose_graph_2d.cc", "cartographer/mapping/internal/2d/pose_graph_2d.h", "cartographer/mapping/internal/constraints/constraint_builder_2d.cc", "cartographer/mapping/internal/optimization/optimization_problem_2d.cc", "cartographer/mapping/map_builder.cc"]}
{"id": "C107", "title": "The optimization problem of the 3D pose graph", "statement": "Solve hands Ceres exactly the residuals that should be there: one per constraint, one per usable landmark observation, for consecutive nodes of trajectories that are not frozen the rotation measured by the IMU between them and the change of velocity measured from the centre of one interval to the centre of the next (or, with fix_z, local SLAM and odometry), and one per node with a fixed frame pose; where the measured values are those of the latest measurement at each time. It aborts exactly if fix_z is off and some trajectory that is not frozen has nodes, but no three consecutive ones, or no measurement before some pair of consecutive nodes. Trimming a node removes exactly the inertial, local SLAM and odometry residuals that involve it, although measurements are removed as well.", "quantifier": "all reachable states, constraints, landmarks, frozen trajectories, measurements and options; all solutions Ceres may return", "why_tests_cant": "Which residuals exist depends on gaps in the node numbers and on how the times of nodes and measurements interleave; the abort for trajectories with one or two nodes needs an optimization to run just then.", "anchors": ["cartographer/mapping/internal/optimization/optimization_problem_3d.cc", "cartographer/mapping/internal/optimization/optimization_problem_3d.h", "cartographer/mapping/internal/3d/imu_integration.h"]}
{"id": "C108", "title": "A printed configuration can be read back", "statement": "For a configuration of booleans, strings, numbers other than NaN and tables whose keys are names or 1..n, ToString gives a Lua table constructor, and reading it (after `return `, as cartographer_print_configuration prints it) gives the same keys and values, where each number is the double nearest to the number printed with six digits after the point; so it differs by at most 1e-6, and not at all if it was written with at most six digits after the point and is below 2^32. The text does not depend on the order in which Lua visits tables, printing what was read gives the same text again, and two configurations with the same text agree up to digits that are not printed. Values outside of this (small numbers, NaN, keys that are no names, arrays with gaps) are lost or give a text that cannot be read.", "quantifier": "all nested configurations, all strings of bytes, all doubles, all orders of table entries", "why_tests_cant": "The round trip is about every string with quotes, control characters and digits after them, every number including ties of the decimal rounding, and every nesting; tests compare one short dictionary.", "anchors": ["cartographer/common/lua_parameter_dictionary.cc", "cartographer/common/lua_parameter_dictionary.h", "cartographer/common/print_configuration_main.cc"]}
{"id": "C109", "title": "A 2D map that is saved and loaded poses the same optimization problem", "statement": "Whatever the pose graph has done (nodes, submaps, loop closures, optimizations, deletions, earlier reloads), saving it does not abort and the file can be loaded; the nodes, submaps and constraints of the loaded graph are exactly those of before, although every constraint is multiplied by the gravity alignment of its node when it is saved and divided by it when it is loaded. If the poses shown are those of the last optimization, every node and submap of the loaded optimization problem is at the same place and every constraint has the same cost; angles may change by full turns. A loaded graph is not changed by saving and loading it again. A file can be loaded if and only if no identifier is twice in it, every constraint is between a node and a submap of the file and no node is twice in the same submap.", "quantifier": "all histories of the pose graph, all poses, all gravity alignments other than zero (also not of norm one), all files", "why_tests_cant": "The cancellation of the gravity alignment must hold for all rotations, and that no CHECK fails while loading depends on an invariant over all histories; tests load one file with a handful of poses.", "anchors": ["cartographer/mapping/internal/2d/pose_graph_2d.cc", "cartographer/mapping/pose_graph.cc", "cartographer/mapping/map_builder.cc"]}
{"id": "C110", "title": "Machine integers: rays never overflow in a grid, and how far a grid can grow", "statement": "With int of 32 and int64 of 64 bits, RayToPixelMask computes for every scale from 2 to below 2^30 and all sub-pixels that are ints the same mask as with unbounded integers, hence exactly the pixels that the ray meets; for a scale of 1 or of 2^30 there are rays where an int overflows. A 2D submap starts with 100 x 100 cells and is doubled until it contains the points: it can be doubled at most eight times, and the growth succeeds if and only if the point is less than 12800 cells from the origin of the submap in x and in y (640 m for cells of 5 cm); for any other point a signed overflow occurs before the vector of cells is resized. In every grid that can be reached, the limits with 1000 sub-pixels per cell, the sub-pixels of all points in the grid, the ray between any two and the flat index of each of its cells are computed without overflow and are exact. As compiled, points a multiple of 2^32 cells apart are taken for the same cell.", "quantifier": "all rays and scales, all resolutions, origins and points, all sequences of growth steps", "why_tests_cant": "The overflows are at sizes no test allocates (a grid of 51200 x 51200 cells), and that no intermediate product overflows must hold for all 10^28 rays of a large grid.", "anchors": ["cartographer/mapping/internal/2d/ray_to_pixel_mask.cc", "cartographer/mapping/2d/map_limits.h", "cartographer/mapping/2d/grid_2d.cc", "cartographer/mapping/2d/probability_grid_range_data_inserter_2d.cc"]}
{"id": "C111", "title": "Including configuration files: which file a name is, and that no file is run twice", "statement": "A name given to include() or read() is the file of that name in the first directory that has one, the user's directories before the standard one, and the process ends if and only if there is none. A configuration is read successfully if and only if running its files as they include each other, in the same global variables, runs no file (by full name) twice; the list of included files is then exactly the list of the files run, in order, and the values of include() are those of the file. If only finitely many names can be opened, reading always ends and the nesting is at most their number. The check does not see that two names are the same file, nor the main file: a file can be run twice as x and ./x, the main file can include itself once, and with unboundedly many names only Lua's nesting limit ends the reading.", "quantifier": "all scripts (as trees of interactions), all file systems and directory lists, all nesting depths", "why_tests_cant": "Tests use three fixed scripts with a fake resolver; the claim is about all include graphs, and the aliases and the main file are not tested.", "anchors": ["cartographer/common/lua_parameter_dictionary.cc", "cartographer/common/configuration_file_resolver.cc"]}
{"id": "C112", "title": "What a saved map keeps of sensor data, landmarks and calibration", "statement": "Whatever was recorded before, loading the saved file into any pose graph succeeds if every trajectory with data of any kind got a new id (and only then), and then the new trajectories have exactly the saved IMU, odometry and fixed frame messages and trajectory data, all others keep theirs, each landmark gets the saved observations appended in order with the new trajectory ids, and the saved pose, now frozen, if it has one. A map loaded frozen brings trajectory data and landmark poses only. Saving again gives the same records up to the ids. In 2D no IMU data exist and gravity and calibration always have the default values, so that nothing is lost by not saving them; reading a 3D file in 2D loses them.", "quantifier": "all histories of both pose graphs (messages, observations, optimizations, trimming), all assignments of new ids, 2D and 3D", "why_tests_cant": "The tests save and load a few fixed messages; the claim is about the content after every history and about loading several maps with common landmarks.", "anchors": ["cartographer/io/internal/mapping_state_serialization.cc", "cartographer/mapping/map_builder.cc:MapBuilder::LoadState", "cartographer/mapping/internal/2d/pose_graph_2d.cc", "cartographer/mapping/internal/3d/pose_graph_3d.cc", "cartographer/mapping/internal/optimization/optimization_problem_2d.cc", "cartographer/mapping/internal/optimization/optimization_problem_3d.cc"]}
{"id": "C113", "title": "Loops over floating point numbers end", "statement": "With every operation rounded to nearest: NormalizeAngleDifference returns for a double exactly if its absolute value is at most 2^56, the loops of AddValueToHistogram end for a float exactly if it is at most 2^26; the results are in the closed range, angles in the range are unchanged, and near the range the result differs from the argument by an exact multiple of the turn. FixedWidth gives strictly increasing boundaries for every positive width and every int; ScaledPowersOf ends for every base above one and every normal scale with strictly increasing boundaries below the maximum, exact for base two. The search of the adaptive voxel filter ends after at most twelve filterings for every point cloud and keeps a length that is at most ten percent below one that is too large.", "quantifier": "all doubles and floats, all answers of the voxel filter", "why_tests_cant": "Termination for all floating point numbers cannot be tested by running; the limits 2^56 and 2^26 are far away from the values in tests.", "anchors": ["cartographer/common/math.h:NormalizeAngleDifference", "cartographer/mapping/internal/3d/scan_matching/rotational_scan_matcher.cc:AddValueToHistogram", "cartographer/metrics/histogram.cc", "cartographer/sensor/internal/voxel_filter.cc:AdaptivelyVoxelFiltered"]}
{"id": "C114", "title": "Fast scan matching with rounded scores", "statement": "With every float operation rounded (any rounding mode, products and sums contracted or not): the CHECKs of the precomputation grids never fail in 2D or 3D, the precomputed value is the largest rounded cell value in the window, the score is monotone in the sum, and so branch and bound returns a pose with the highest computed score of all poses in the window, in 2D and 3D. The computed score differs from the exact mean score of the cells by at most half a step of (max - min) / 255 and 2^-17, so no pose of the window is better than the match by more than a step and a little, and a match is found whenever some exact score is above the minimum by half a step and a little. Every ProbabilityGrid meets the assumptions, whatever its values.", "quantifier": "all maps, scans, search windows, depths, results of sort, rounding modes", "why_tests_cant": "Tests compare one match on one map with a tolerance; a rounding that breaks the bound of a coarse candidate or a CHECK shows for few of all floats.", "anchors": ["cartographer/mapping/internal/2d/scan_matching/fast_correlative_scan_matcher_2d.cc:ComputeCellValue", "cartographer/mapping/internal/2d/scan_matching/fast_correlative_scan_matcher_2d.h:ToScore", "cartographer/mapping/internal/3d/scan_matching/precomputation_grid_3d.cc:ConvertToPrecomputationGrid", "cartographer/mapping/internal/3d/scan_matching/precomputation_grid_3d.h:ToProbability"]}
{"id": "C115", "title": "Trajectories added while others run", "statement": "For every interleaving of adding, data, finishing and flushing in which the ids of added trajectories increase, data and finishing come only for running trajectories and each sensor sends in the order of time: the collator by trajectory never aborts. The common collator, at the end of the session, has aborted exactly if some data of a trajectory is older than data that had been delivered when the trajectory was added. As long as it has not aborted it delivers in the order of time, only what was received, and for each trajectory a part from the front of what the collator by trajectory delivers; once all trajectories have ended both have delivered the same for each trajectory.", "quantifier": "all sequences of calls, sensors, times, numbers of trajectories and moments at which they are added", "why_tests_cant": "whether a late trajectory kills the process depends on what was delivered before it was added and shows only later, when other sensors send or end; the tests add all queues before any data", "anchors": ["cartographer/sensor/internal/collator.cc:26-53", "cartographer/sensor/internal/trajectory_collator.cc:28-66", "cartographer/sensor/internal/ordered_multi_queue.cc:48-139", "cartographer/mapping/map_builder.cc:104-166"]}
{"id": "C116", "title": "The map builder: ids, saving, loading while in use", "statement": "Whatever a user does with the map builder (adding trajectories, data, finishing, deleting, freezing, loading maps) and however the worker of the pose graph is interleaved: trajectories are numbered in the order in which they were added or loaded, no id is used twice, and the options and builder at each id are those the trajectory was created with. If the user names only trajectories that exist, the pose graph knows only such ones, saving at any time finds the options of every trajectory, and loading gives the loaded trajectories ids that neither the map builder nor the pose graph has, different ones for different trajectories, in the order of the file and with the options of the file. With the collator by trajectory no call of a careful user aborts; with the common one only if data is older than what had been delivered when its trajectory was added.", "quantifier": "all sequences of calls of the user, of calls of local SLAM and of steps of the pose graph's worker, all files and both collators", "why_tests_cant": "the ids of running, finished, deleted and loaded trajectories meet in four containers that are changed at different times by different threads; the tests load into an empty map builder and do nothing meanwhile", "anchors": ["cartographer/mapping/map_builder.cc:56-73", "cartographer/mapping/map_builder.cc:77-181", "cartographer/mapping/map_builder.cc:202-384", "cartographer/mapping/map_builder.h:60-101", "cartographer/mapping/internal/collated_trajectory_builder.cc:30-65"]}
{"id": "C117", "title": "The 3D pose graph behaves as the 2D one", "statement": "Every execution of the 3D pose graph is an execution of the 2D pose graph, so everything that holds for all of these holds in 3D. A step of the 3D pose graph aborts where the 2D one does not exactly if a pair is searched whose node or submap is not yet in the optimization problem, or if residuals are logged and the submap of a constraint of local SLAM is not in it. With local SLAM as the caller (C56) this never happens: the executions are the same, no CHECK fails, the same pairs are searched and the graph contains exactly what local SLAM did. With loading and finishing from different threads it can happen.", "quantifier": "all executions of callers, worker, constraint searches and optimizations, any number of trajectories, with and without logging", "why_tests_cant": "the two classes are copies of 1200 lines that differ in a few places; the extra lookups fail only in certain interleavings", "anchors": ["cartographer/mapping/internal/3d/pose_graph_3d.cc:249-308", "cartographer/mapping/internal/3d/pose_graph_3d.cc:831-906", "cartographer/mapping/internal/2d/pose_graph_2d.cc:261-310"]}
{"id": "C118", "title": "Loading a map while the pose graph is in use", "statement": "A map builder that was used in any way loads a sound file (no id twice, constraints between submaps and nodes of the file, no node twice in a submap) while other threads go on with other trajectories and the pose graph runs work items, searches, optimizes and trims. No call of the load and none of its work items aborts in any interleaving. When the last work item has run, the pose graph has for the new trajectories exactly the submaps, nodes, memberships, frozen states and constraints of the file under the new ids, and if the map was loaded frozen this stays so whatever the trimmers do. Files written by WritePbStream are sound.", "quantifier": "all histories of the map builder, all sound files, frozen or not, all interleavings of the calls of the load with calls of other threads and steps of the worker", "why_tests_cant": "the work items of the load run later than the calls, with an optimization or a trimming between any two of them; tests load into an idle map builder", "anchors": ["cartographer/mapping/map_builder.cc:216-384", "cartographer/mapping/internal/2d/pose_graph_2d.cc:634-860", "cartographer/mapping/internal/2d/overlapping_submaps_trimmer_2d.cc:55-141"]}
{"id": "C119", "title": "Localization in a loaded map", "statement": "Maps are loaded and trajectories are localized in them at the same time: nodes come from local SLAM, trajectories have a PureLocalizationTrimmer or not, are finished, and the pose graph runs work items, searches, optimizes and trims. Nothing aborts in any interleaving. Once the items of the loads have run, the loaded trajectories are exactly the files', and stay so. Of every other trajectory with `a` nodes there is always, for some `lo`, exactly what local SLAM built without the first `lo` submaps and the nodes that are in them only; after a trimming at most as many optimized submaps as its trimmer is to keep, and nothing if it was finished, in which case it is marked as deleted.", "quantifier": "all sound files, all numbers of range data per submap, all trajectories with any numbers of nodes, all trimmers keeping at least two submaps, all interleavings of the callers and the worker", "why_tests_cant": "a submap or node is removed while later work items, searches and members still refer to its neighbours; the tests trim a fixed graph at one point", "anchors": ["cartographer/mapping/pose_graph_trimmer.cc:25-48", "cartographer/mapping/map_builder.cc:56-181", "cartographer/mapping/internal/2d/pose_graph_2d.cc:100-640"]}
{"id": "C120", "title": "Constraints within submaps agree with the nodes of submaps", "statement": "The pose graph keeps twice which node was inserted into which submap: in node_ids of the submap and in the constraints with the tag INTRA_SUBMAP. At all times a node of local SLAM has exactly one such constraint with each submap that has it in node_ids and none with others; no node ever has two with the same submap. A node of local SLAM is in the pose graph exactly as long as its work item has not run or some submap has it, and never both. With local SLAM and pure localization the constraints are one for each submap left and each of its nodes. Whatever a map builder saves, at any time, has no constraint twice and so can be loaded.", "quantifier": "all executions of the pose graph in which AddNode is called for trajectories with a builder and nodes of files are added to others, all trimmers with all choices, all deletions and freezes; all executions of the map builder; all interleavings", "why_tests_cant": "the two records are changed in different functions, by work items that run later, and by trimming, whose choices are arbitrary", "anchors": ["cartographer/mapping/internal/2d/pose_graph_2d.cc:312-402", "cartographer/mapping/internal/2d/pose_graph_2d.cc:796-832", "cartographer/mapping/internal/2d/pose_graph_2d.cc:1207-1299", "cartographer/mapping/map_builder.cc:216-384"]}
{"id": "C121", "title": "What is reported of a saved state is what is in it", "statement": "pbstream info gives a report exactly if the stream begins with a header of version 1 or 2, a pose graph and as many options as trajectories, and every later record is of a kind it knows; one of another kind, which LoadState skips, is undefined behavior. The report names each kind of record once, in order, with the number of its records; exactly the kinds that occur and the four kinds of submap contents are named. For a file written by a map builder these are the numbers of submaps written, nodes, trajectory data, sensor data and landmark observations, and the nodes and submaps listed by trajectory add up to them. Of a file cut off at any byte there is a report exactly if the first three records are whole; it differs only in counts that may be smaller.", "quantifier": "all streams of records, all saved states, all numbers of bytes left of a file, all lawful codecs", "why_tests_cant": "needs every combination of records and every byte at which a file may end; the undefined behavior needs a record the writer never writes", "anchors": ["cartographer/io/internal/pbstream_info.cc:37-108", "cartographer/io/proto_stream_deserializer.cc:46-71", "cartographer/mapping/proto/serialization.proto:76-88"]}
{"id": "C122", "title": "Relations given as text are those that are used", "statement": "A file of numbers separated by white space is read as relations of eight numbers each, in order: times, position, and roll, pitch and yaw. Every way to write a decimal number is read as the double nearest to it and nothing after it is taken. If the file ends within a relation, this one is left out without notice. Anything that does not begin like a number aborts wherever it is, as does a missing file. Timestamps are off by at most one tick up to 2027. The rotation is a unit quaternion that turns by roll around x, then by pitch around y, then by yaw around z; its yaw is the given one if the pitch is less than a quarter turn.", "quantifier": "all texts of numbers, all numbers of relations, all white space; all angles", "why_tests_cant": "needs all ways to write numbers and all places where a file may end or be damaged", "anchors": ["cartographer/ground_truth/relations_text_file.cc:31-59", "cartographer/transform/rigid_transform.cc:40-46", "cartographer/common/time.cc:29-45"]}
{"id": "C123", "title": "Colors of trajectories can be told apart", "statement": "In single precision, with or without fused operations, GetColor gives a color for every identifier that is not negative. Its brightest channel is the configured value, its darkest the one of full saturation, and all channels are within 2^-19 of the color of its hue; six times the hue is never rounded up to six, so black is never returned. The hues of successive identifiers below 8192 are more than 0.38 of a turn apart both ways, the first thousand colors are pairwise different and the first 233 also as bytes. From 13600000 on all identifiers have the same color. A byte is the nearest to 255 times the clamped channel, grows with it, and survives the conversion to float and back.", "quantifier": "all identifiers, all hues, saturations and values that are floats, all channels, all bytes", "why_tests_cant": "billions of identifiers and floats; the boundary at hue 1 - 2^-24 is not hit by chance", "anchors": ["cartographer/io/color.cc:29-68", "cartographer/io/color.h:31-50", "cartographer/common/math.h:31-40"]}
{"id": "C124", "title": "Intensities of submaps are means of what was measured there", "statement": "In three-dimensional local SLAM, from the measurements of scans through voxel filters, range filters and transformations to the grids of submaps, nothing aborts for any sequence of scans and any choices of the filters, motion filter and solver. Each point that is inserted is a measurement of its scan that is in range, with its own intensity. A voxel of an active submap has the mean of the intensities not above the threshold of the near points that fell into it, of exactly the scans inserted into this submap, and zero if there are none; erased submaps have forgotten theirs and are never asked for them. Against each active submap a scan can be matched: all residuals are defined at all poses. Without use_intensities all intensities stay zero. push_back keeps a point cloud valid only if it has no intensities.", "quantifier": "all sequences of scans that fit into the grids, all options that are allowed, all random numbers, poses and answers of the motion filter, all voxels and poses", "why_tests_cant": "points and intensities are kept in two vectors through eight operations; losing the order shows only as a slightly wrong mean; the sequences are unbounded", "anchors": ["cartographer/sensor/point_cloud.cc:28-81", "cartographer/sensor/point_cloud.h:59-84", "cartographer/mapping/internal/3d/local_trajectory_builder_3d.cc:62-109", "cartographer/mapping/internal/3d/local_trajectory_builder_3d.cc:169-433", "cartographer/mapping/3d/submap_3d.cc:39-49", "cartographer/mapping/3d/submap_3d.cc:271-351", "cartographer/mapping/3d/submap_3d.h:63-69"]}
{"id": "C125", "title": "Ground truth of a saved map represents submaps by their middle nodes", "statement": "For every execution of the pose graph below local SLAM with one trajectory, number 0, in any order of its work items, searches and optimizations, whether or not unfinished submaps are written, GenerateGroundTruth on the message of PoseGraph::ToProto does not abort. Once all work items have run, submap k, with nodes k n to (k+2) n - 1, is represented by node (k+1) n, and the last submap written has no representative; each relation comes from a loop closure of a node j with a submap k that is not the last, goes from node (k+1) n to node j, and expects node j where the submap and the loop closure put it. If a node was added to another trajectory and all submaps are written, it always aborts; so it does if the first remaining constraint of local SLAM is to submap 2 or later, and in every execution, with any trimmers, once submap 1 of trajectory 0 was removed and a constraint of local SLAM to a later submap is written. If node 0 was removed and it does not abort, each relation is about a node later than that of its loop closure.", "quantifier": "all executions of the pose graph with local SLAM, all numbers of range data per submap, all poses and times, all thresholds", "why_tests_cant": "That ids can be used as positions, and constraints appear in the order of submaps, depends on how local SLAM, the work queue and searches interleave and on what is written of the pose graph; tests give hand-written messages or small maps.", "anchors": ["cartographer/ground_truth/autogenerate_ground_truth.cc:46-149", "cartographer/mapping/pose_graph.cc:117-210", "cartographer/ground_truth/autogenerate_ground_truth_main.cc:48-70"]}
{"id": "C126", "title": "A saved map yields exactly the slices of its submaps, if it is not torn", "statement": "DeserializeAndFillSubmapSlices does not abort on a file if and only if every submap record with a grid has a pose in the pose graph message and can be drawn, and of two such records for one submap the first shows no pixels; it then yields, in the order of ids, the slice of the last record of each submap at the last pose in the message, and all of them are painted. For every reachable pose graph, a map saved while nothing else happens yields one slice for each saved submap with a grid, at its global pose. If the pose graph goes on while it is saved, this holds if and only if every submap written with a grid was already written to the pose graph message; a node with a new submap, or a submap that is finished, between the two makes the file one from which neither slices can be made nor the state be loaded. LoadState accepts only files in which every stored submap and node, and the trajectory of all other data not skipped, is in the pose graph message, so that a node added meanwhile makes the file useless, too. Exactly the files are accepted that also have a known version, as many options as trajectories, no trajectory, submap or node twice in the message, no negative index, and constraints only of trajectories in it. In every reachable state, the constraints of a file are accepted by the worker if and only if their nodes and submaps are there and no INTRA_SUBMAP constraint is repeated or already there; a trajectory deleted while saving leaves a file that is accepted by LoadState and aborts there. With 2D probability grids that have no pending updates, every known cell of every submap of a map saved while nothing else happens is painted, with its log odds and where the global pose of the submap puts it. The same holds for signed distance grids, whose cells show the distance faded with the weight. For probability grids this includes storing the grid in the file and reading it again, for all grids that can come about.", "quantifier": "all files, all drawing functions, all executions of the pose graph before and during saving", "why_tests_cant": "Whether the file is torn depends on what other threads do between two critical sections of saving; tests save maps when nothing else runs.", "anchors": ["cartographer/io/submap_painter.cc:60-68", "cartographer/io/submap_painter.cc:120-175", "cartographer/io/submap_painter.cc:195-199", "cartographer/io/internal/mapping_state_serialization.cc:80-101", "cartographer/mapping/pose_graph.cc:135-210", "cartographer/mapping/2d/submap_2d.cc:127-135"]}
