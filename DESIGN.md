# Formal model of cartographer: design

Prover: Lean 4.33.0 with selected Mathlib modules. `lean/Verif/` holds the model, `lean/Verif.lean` imports it all.
Source under study: `/repo/cartographer` (C++), read as text. Properties: `properties.jsonl`; status: `MANIFEST.json`.

## Trusted base

* Lean's kernel and the three standard axioms `propext`, `Classical.choice`, `Quot.sound`. No other axiom is used
  (each property file ends with `#print axioms`-checked theorems; see section "Axioms").
* The transcription of the C++ into Lean. Each Lean definition cites the file and lines it transcribes and states the
  simplification made, if any. This is checked by reading only.
* The meaning of the specification definitions in each `Props` file.
* Formulas of libraries that are not part of the repository (interpolation and loss functions of Ceres, products of Eigen) as transcribed from
  their documentation.

## Conventions

* `CHECK*`, `LOG(FATAL)` failing: the operation returns `none` / `.error` (process abort). It is a distinct outcome, never
  totalised to a value. Undefined behaviour (null or past-the-end dereference) is an abort as well, marked in the comment.
  `DCHECK` is treated like `CHECK` where we can prove that it never fails, and ignored otherwise.
* `int` is `Int` or `Nat` (no overflow) unless the width matters for the property (`uint16` cell values and counters, packed
  64 bit voxel keys, 10 bit packed coordinates): then it is modelled with explicit wrap-around.
* `float`/`double` are exact rationals or reals, or an arbitrary linear order when only comparisons are used (so that the
  theorem also covers floating point). NaN is outside the model. C45, C104 and C105 round every operation to the binary format.
* `common::Time` is an `Int` number of ticks.
* Containers (`std::map`, `deque`, `vector`) are sorted association lists / lists with the same iteration order.
* Concurrency: a mutex-protected critical section is one atomic step; a program is a labelled transition system and the
  theorems range over all finite executions (induction over reachability).
* Layout: `Verif/<Component>.lean` model; `Verif/<Component>Lemmas.lean` helpers (when large); `Verif/Props/<Component>.lean`
  the specification and the property theorems, with non-vacuity `example`s next to them.

## Plan per property

| id | model | proof |
|---|---|---|
| C01 | transition system of `Task`/`ThreadPool` with one step per critical section | inductive invariant over all executions |
| C02 | same system with shutdown | invariant + measure: terminal states have all tasks completed; progress |
| C03 | `OrderedMultiQueue` as a function on (queues, start times, last time) | invariant: every queue head is >= last dispatched time |
| C04 | same | conservation invariant per queue over operation histories |
| C05 | same | output = function of the final per-queue streams (merge specification) |
| C06 | same | case analysis of `Dispatch` result |
| C07 | LTS of `BlockingQueue` | history variable: pushed = popped ++ content |
| C08 | `MapById` as map of (can_append, sorted map) | refinement to a finite partial function; iterator traversal |
| C09 | same | false in general: counterexample proved; `_partial` under "no trajectory is emptied" |
| C10 | `lower_bound` with gap search | loop invariant |
| C11 | `MapByTime::Trim` | neighbour queries preserved |
| C12 | conversions over rationals with lround | arithmetic |
| C13 | table computation over rationals | monotonicity through rounding |
| C14 | grid cells as function with update list | invariant over op sequences |
| C15 | `GrowLimits` loop | termination measure; world-coordinate lookup preserved |
| C16 | `MapLimits` over rationals/reals | arithmetic |
| C17 | `ToProto`/ctor, cropping | round trip |
| C18 | `FlatGrid`/`NestedGrid`/`DynamicGrid` | refinement to `Z^3 -> value` |
| C19 | iterators | enumeration = support; round trip |
| C20 | `RayToPixelMask` integer loops | geometric characterisation by loop invariant |
| C21 | `CastRays` on top of C14 | closed form of the fold |
| C22 | counters of active submaps | invariant by induction on insertions |
| C23 | union-find forest with path compression | refinement to `EqvGen` |
| C24 | connectivity state | refinement to history; crash on unregistered ids proved as disagreement |
| C25 | 10/30-bit packing of blocks | round trip as multiset |
| C26 | reservoir sampling with explicit choice function | induction on the points |
| C27 | window state machine | conservation and ordering |
| C28 | byte stream codec, gzip abstract inverse pair | round trip, truncation gives a prefix; opened exactly if the magic number is there; indistinguishability of truncation at a record boundary as disagreement |
| C29 | record sequence writer/reader over reachable pose graphs | exact condition for saving and for loading, content of what is loaded; unloadable files as disagreement |
| C30 | rational ratio | closed form by induction |
| C31 | abstract distance/angle | case analysis on histories |
| C32 | LTS of work queue/drain/optimization callback | inductive invariant |
| C33 | state machine of trajectory data with queue | invariant over histories |
| C34 | pure function `TrimSubmap` | set algebra |
| C35 | trimmer over abstract trimmable | list lemma |
| C36 | `OverlappingSubmapsTrimmer2D` with uint16 counters and the rule when it runs | exact if counts < 2^16; wrap-around, zero minimum and double cells as disagreement |
| C37 | sliding window maximum, precomputation grid over a linear order | loop invariants |
| C38 | branch and bound over a linear order of scores | induction on depth |
| C39 | rigid transforms over the reals (quaternions) | ring algebra; necessity of unit norm |
| C40 | buffer as list, slerp over the reals | invariant, lower_bound spec |
| C41 | extrapolator with its three queues over the reals, `Except` for each CHECK | exact failure conditions; stale cache as disagreement, `_partial` |
| C42 | constraint builder over the task LTS abstraction | invariant |
| C43 | dictionary as reference-counted table, nested dictionaries as trees | exact condition for a life without abort |
| C44 | `PoseGraph::ToProto` | set algebra |
| C45 | ticks arithmetic, doubles as rationals rounded to 53 bits | error bounds, witnesses beyond 2^54 ticks |
| C46 | uploader loop with nondeterministic server | invariant over executions; loss at shutdown and repeated batches as disagreement |
| C47 | bucket counting with an arbitrary monotone rounding | partition argument; double counting in float as disagreement |
| C48 | TSDF growth, ray, update of cells, quantised distance and weight | one scan specified cell by cell; abort for scans with height as disagreement |
| C49 | 3D precomputation grids as functions on voxels | exact window maximum by induction on depth |
| C50 | `SubmapController` | refinement over message histories |
| C51 | adaptive voxel filter with binary search over edge lengths | loop invariant; result is the last tested filter |
| C52 | product of work queue, constraint builder and node calls | refinement of both components, WaitForAllComputations |
| C53 | 3D branch and bound over precomputed window maxima | induction on depth |
| C54 | sender and receiver of local SLAM results, shared index | simulation for undisturbed trajectories; three witnesses otherwise |
| C55 | pose queue of the extrapolator | invariant: queue poses lie on the line and cover the duration |
| C56 | the pose graph LTS with callers that behave like local SLAM | inductive invariant giving the full content of the graph (`LocalSlamGraphInvariant.lean`) |
| C57 | the same with ghost list of searched pairs | invariant: searched + to do = wanted pairs |
| C58 | poses of nodes and submaps shown and in the optimization problem, as LTS over arbitrary groups of transforms (`GlobalPoses.lean`); the solver is an oracle | inductive invariant: indices of the nodes waiting, unread transforms current, waiting nodes aligned |
| C59 | the same, with loading and freezing; assumed of the solver: constant parameter blocks keep their values | inductive invariant over the history of loads |
| C60 | `OptimizationProblem2D` with the iterators of `MapById`; loops with fuel (`OptimizationProblem.lean`); Ceres is an oracle | each loop equals a list expression; interpolation characterised by the nearest readings; invariant over all calls |
| C61 | the same with `TrimTrajectoryNode` | C11 for odometry and fixed frame data, C60 before and after |
| C62 | `MapBuilderServer`: transition system of clients, SLAM thread and subscriptions; a connection may refuse a message | invariant: maps of subscriptions = open handlers, inbox = relevant part of the event log since subscribing |
| C63 | the same | invariant: data given + data waiting = data sent by the client of the trajectory |
| C64 | local trajectory builders 2D/3D on top of the collator (C27) and the extrapolator (C41); voxel filters and scan matcher are arguments | invariant that bounds all times the extrapolator is asked for; the abort on gravity is the only one left |
| C65 | the same | invariant: scans delivered = dropped ++ groups ++ waiting; rays as a separate specification of returns and misses |
| C66 | `Verif/PointsProcessor.lean`, `Verif/Props/PointsProcessorSpec.lean`, `Verif/Props/PointsProcessor.lean`, `Verif/Props/PointsPipeline.lean` | stages as functions on streams of rows (`denote`, independent of columns, passes and files); invariant of every stage over the batches seen; composition of stages by induction over the pipeline; three passes of the outlier removal as counts over the voxel map (uses C38) |
| C67 | `Verif/Props/PointsShape.lean` | abstraction of the stages to what `Flush` distinguishes; measure = passes still wanted by the first outlier removal; invariant "only the first outlier removal has left the first phase" |
| C68 | `Verif/SubmapTexture.lean`, `Verif/Props/SubmapTexture.lean` | spec: `Shows`, `Observed`, `decoded`, `centre`; row-major order of the index iterator, two bytes per pixel invert `UnpackTextureData`; planar embedding for the placement |
| C69 | `Verif/Props/SubmapXray.lean` | spec: `obstructed`, `column`, `Extent`, `columnAverage`, `ShowsColumn`; fold invariants of extraction and accumulation; witness for the submap without obstructed cells; exact place of the pixels |
| C70 | `Verif/Props/SubmapTexture.lean` | affine functions on a rectangle take their extremes in the corners; induction over the slices; witness for the slice without surface |
| C71 | `Verif/Props/CostFunctions.lean` | normalizing an angle changes it by full turns (induction over the two loops), locally a translation away from ±π; the residual is the relative pose read in the frame of the first pose, so that it vanishes iff the poses act alike; directional derivatives by the product and chain rules; the rotation vector is zero iff the quaternion has no vector part, and unit quaternions act alike iff their quotient has none |
| C72 | `Verif/Props/CostFunctions.lean` | the two scales of the spherical interpolation satisfy p + n c = cos(tθ), n + p c = cos((1-t)θ), p² + n² + 2 p n c = 1; the linear branch has norm² 1 - 2 t (1-t)(1-|c|); everything is bilinear in the quaternions, hence commutes with multiplication by a unit quaternion |
| C73 | `Verif/Props/ImuIntegration.lean`, `Verif/Props/CostFunctions.lean` | induction over the loop yields a chain of segments, each with the latest measurement, independent of what was integrated before; sums over the segments by induction; rotations about one axis add up |
| C74 | `Verif/Props/RealTimeCorrelative.lean` | membership in the list of candidates, `max_element` by induction; RoundToInt(t - 1/2) is the floor unless t is an integer that is not positive, so that shifting cells is moving points; chord² = 2 (1 - cos s) range² for the angular step |
| C75 | `Verif/Props/RealTimeCorrelative.lean` | membership in the list of transforms, the loop keeps the best of all seen; means are between the bounds of the values |
| C76 | `InterpolatedGrid` over the reals (`ScanMatchCost.lean`); specification: convolution of the voxel values with a compactly supported kernel (`Spline.lean`) | lower voxel is the floor; a convolution is locally a finite sum of shifted kernels, so it inherits smoothness of the kernel |
| C77 | `Verif/Props/ScanMatchCost3D.lean`: residuals, parameterizations, problem of `Match`; the solver is any pose that costs no more | bounds of the field; sum of squares; difference of the costs of the two poses |
| C78 | `Verif/Props/ScanMatchCost2D.lean`: `BiCubicInterpolator` of Ceres by its Hermite formula, adapter with padding | Hermite formula is convolution with the kernel of Keys; exact range of the kernel; witnesses for both ends |
| C79 | `Verif/Props/ScanMatchCostTsdf.lean` | lower pixel is the ceiling; bilinear interpolation is convolution with the hat function; sums of weights |
| C80 | `Verif/Props/RotationalScanMatcher.lean` | rotation is convolution of the periodic histogram with the hat function (the rounded displacement is the floor or one less with fraction one); cyclic sums; Cauchy-Schwarz and its equality case |
| C81 | `Verif/Props/RotationalHistogram.lean` | angles reduced to a unique representative; histogram = sum over an explicit list of weighted directions; slices = filters by height; uniqueness of the sorted list for distinct angles; motions commute with the list of directions |
| C82 | `Verif/Props/DetectFloors.lean` | cuts of a trajectory are unique; union-find = forest with a decreasing depth, its classes = equivalence closure of nearness; assignments of short parts as an invariant; medians of unions lie between the medians; levels do not overlap |
| C83 | `Verif/Props/GroundTruth.lean`, `Verif/Props/RelationMetrics.lean` | proper transforms as a group; covered distances as path lengths with the triangle inequality; relations = filter and map over the constraints; angle of a product does not depend on the order; closed loop through the interpolation buffer |
| C84 | `Verif/Props/RelationMetrics.lean` | the buffer holds all nodes; lookup at the nearest time in range; errors in the group of motions with its element of order two; sums over pairs |
| C85 | `Verif/Props/Messages.lean` | loops that fill messages are maps; nodes via the round trip of compressed clouds (C25); rounding is idempotent; bounds of rounded points |
| C86 | `Verif/Props/LoopClosureMatch.lean` | optimality of the branch and bound (C38) over the shrunk bounds; poses outside the bounds hit no cell; rounding of scores to bytes |
| C87 | `Verif/Props/LoopClosureSearch.lean` | invariant of samplers by submap over runs; constraints by the residual of C71; choice by the last connection time (C24) |
| C88 | `Verif/Props/Collators.lean` | the state is a product of parts, one for each trajectory; both are runs of the queue of C03-C06, compared by uniqueness of sorted merges; never ahead by the blocking queue |
| C89 | `Verif/Props/RateTimer.lean` | the trimmed events as a suffix of given length, by induction over pulses from the end; telescoping sums |
| C90 | `Verif/Props/TrajectoryFeed.lean` | the calls are mapped to runs of the queue of C03-C06; outputs come from inputs, so types that are not collated can be filtered out |
| C91 | `Verif/Props/GlobalTrajectoryBuilder.lean` | induction over the data by type; composition with C90 and with `Append` of C11 |
| C92 | `Verif/Props/NormalEstimation.lean` | loop invariants for the window; normals as complex numbers, `atan2` as the argument; sums over samples by induction |
| C93 | `Verif/Props/Match3D.lean` | on top of the optimality of the branch and bound search (C53); chords for the angular step; voxels outside the grid for whole submaps |
| C94 | `Verif/Props/LoopClosure3D.lean` | algebra of rigid transforms and quaternions; C93 for the matches; the period of histograms (C80) |
| C95 | `Verif/Props/Migration.lean` | the life cycle of submaps (C22) says which nodes are inserted; fold over constraints with the sum of contributions as invariant |
| C96 | `Verif/Props/StreamMigration.lean` | the queue of work items and the number of items run before each read; the constraints are the last item |
| C97 | `Verif/Props/ClientStub.lean` | messages composed with their readers are the identity; sorted insertion of a sorted list gives it back; induction over the chunks of a stream |
| C98 | `Verif/Props/SensorStreams.lean` | calls, queue, streams and what is left to do of a stream make up the program; then the determinism of collation (C05, C88) |
| C99 | `Verif/Props/ImuExtrapolator.lean` | exact condition for an abort of one call; invariant of all executions that the previous solution and the poses agree but for the last of each; then the true motion with C39, C71-C73 |
| C100 | `Verif/Props/Locks.lean` | every function as the program of its lock operations; theorem that programs following a strict order have no deadlock; the order is levels (server, graph and queue, builder, tasks, pool) and the dependencies among tasks, which have no cycle because handles come from `Schedule` |
| C101 | `Verif/Props/XRayImage.lean` | invariant of the aggregations over all batches, bijection between columns in the box and indices of the matrix, loop invariant for counts and means, then the largest logarithm |
| C102 | `Verif/Props/Image.lean` | packed colors as sums, row-major positions are injective; drawing is a scatter over the cropped cells; invariant over all batches: every point seen so far lies in a known cell |
| C103 | `Verif/Props/Configuration.lean` | the functions as data (key, field, mode, reader), one interpreter with counted dictionaries; mutual induction over readers shows that it agrees with a declarative meaning; the fields are compared with a transcription of the .proto files over the whole finite table, the shipped files are transcribed with `math.rad` as a parameter |
| C104 | `Verif/Props/FloatFormat.lean`, `Verif/Props/FloatProbability.lean` | binary formats with rounding in any mode (monotone, keeps the numbers of the format, relative error, nearest); the functions of C12 and C13 with a rounding after every operation and optional contraction; error analysis in units of a little more than 2^-23, gaps between neighbouring values stay larger than the errors |
| C105 | `Verif/Props/FloatCells.lean` | the conversions between coordinates and cells with the roundings of C104; error bounds relative to the resolution, strict at the nearest integer |
| C106 | `Verif/Props/Races.lean` | threads as programs of lock scopes, accesses, choices and loops over 27 members; every function of the pose graph is reduced to which members it touches under which locks. Invariant: who holds which lock, and that at most one thread runs the work queue; a member is guarded by locks, by being that thread, or by both (one to read, all to write) |
| C107 | `OptimizationProblem3D` (`OptimizationProblem3D.lean`), on top of C60 and the integration of C73; a parameter block Ceres does not know is an abort; `tick` gives times as integers | the loops over one trajectory equal a statement about pairs and triples of consecutive nodes; "what is measured between two times" is specified by segments of the latest measurement and shown to be unique; trimming via C11 |
| C108 | `ToString`, `DoToString`, `GetKeys`, `QuoteStringOnStack` (`LuaText.lean`), texts as lists of bytes; and, as the specification, a reader of the part of Lua's grammar that the texts use (table constructors, strings with escapes, decimal numbers, `-`, `true`, `false`, `math.huge`, names as nil) | each printed piece is read as the value whatever follows, by induction on the value; the numbers by "the double read is at least as near to the decimal as the double printed", with the ties of the decimal rounding |
| C109 | the poses of `PoseGraphData` and of the optimization problem with the operations that change them, `constraints`, `ToProto`, `AddSubmapFromProto`, `AddNodeFromProto`, `AddSerializedConstraints` (`SavedGraph.lean`); the solution of the solver and the place of a new submap are arbitrary | an invariant over all histories (same keys, constraints between existing nodes and submaps, in the plane, INTRA pairs distinct), which makes loading give an explicit graph (`load_save`); `(r·q)·q⁻¹ = r` with the normalization after each product; cost by `NormalizeAngleDifference` modulo full turns up to sign |
| C110 | `RayToPixelMask` with every intermediate result checked against `int` / `int64`, the superscaled limits, `GetCellIndex` and `GrowLimits` likewise (`MachineInts.lean`) | simulation of the unbounded functions of C20 step by step with an invariant bounding the sub-pixel (`|sub_y| ≤ 2·s·dx` and so on), then C20; growth by the explicit limits after k doublings (`limitsAt`), which fit for k ≤ 8 only |
| C111 | `LuaInclude`, `LuaRead`, the constructor, `GetFullPathOrDie`, `GetFileContentOrDie` (`Includes.lean`); a script is a tree of its interactions with `include`, `read` and the global variables | `Exec`, a big-step semantics without any check, gives the trace of files run; the code succeeds iff that trace has no duplicates (`run_iff`); number of files as a bound of the nesting (`nesting_bounded`); witnesses for aliases, the main file and endless inclusion |
| C112 | the data setters of `PoseGraph2D`/`3D` and `OptimizationProblem2D`/`3D`, the `Serialize...` functions and the records in `LoadState` (`SavedSensors.lean`); solver results and the data kept when trimming are arbitrary | invariant over all histories (`wf_run`), lookups after loading (`load_saved`, `load_frozen`), necessity of the ids (`load_needs`), equality of the file saved again (`same_file`) |
| C113 | the loops of `NormalizeAngleDifference`, `AddValueToHistogram`, `FixedWidth`, `ScaledPowersOf` and `AdaptivelyVoxelFiltered` with every operation rounded (`FloatLoops.lean`); the voxel filter is an arbitrary answer per length | progress by at least a fixed amount below the limit, fixed point above it (`stuck`), `up` as mirror image of `down` (`up_eq`), exact differences (`sterbenz`), halving of the interval up to rounding (`binary_ends`) |
| C114 | the float arithmetic of both fast correlative matchers (`FloatMatch.lean`): values of cells, precomputation, scores; the searches are those of C38 and C53 | rounded cell values are the exact values of another map (`rounded`), maxima of windows commute with monotone functions (`slide_map`), hence the precomputed grids are equal and C37, C38 apply; in 3D the converted grid is specified again and C53 applies; error bounds operation by operation |
| C115 | `Collators.lean` (C88) with trajectories added at any time | the queue invariant of C03-C06 is generalized by a relation `lim` that says which delivered data bounds the queues added later; "good" prefixes keep it, data older than the bound leaves a "doomed" queue that stays until a `CHECK` fails; the comparison of the collators is by the restricted invariant of each trajectory |
| C116 | `MapBuilder.lean`: the builders, options, the collator (C88), the pose graph (C33-C35) and the calls of the pose graph still to be made, so that its worker runs in between | a predicate `Within` on all places of the pose graph where a trajectory id occurs (states, queue, in flight, trimmers) is kept by every step; the calls of the collator are read off the steps and C115 is applied to them; loading is that of C29 |
| C117 | `PoseGraph3D.lean`: the two functions that differ from 2D (found by comparing the files after renaming 2D to 3D), all else is `PoseGraph.lean` | a step of the 3D graph is characterized as the 2D step plus what is looked up; the lookups succeed under the invariant of C56; refinement by induction over executions |
| C118 | `LoadWhileRunning.lean`: the calls of `LoadState` (`Serialization.load`) interleaved with all other steps of the pose graph (`PoseGraph.lean`); the next call is made when the item of the one before is in the queue | frame theorem: steps of the rest change nothing of the new trajectories; invariant in terms of the calls made and the items run; every call finds what it needs for a sound file; the trimmer of C36 chooses only submaps that have constraints, which come last |
| C119 | `Localization.lean`: executions (`Uses`) in which loads (`LoadWhileRunning.lean`), local SLAM (`LocalSlamGraph.lean`) and pure-localization trimmers work on the same pose graph of `PoseGraph.lean` | simulation: a ghost pose graph that is never loaded into and never trimmed satisfies the invariant of C56; the real one is that with the first submaps of each trajectory cut off (`Cuts`) and the loaded trajectories put beside it (invariant of C118); every step of the real one corresponds to a step of the ghost |
| C120 | `SubmapConstraints.lean`: who calls what, over the machine of `PoseGraph.lean` with any trimmers; the map builder of C116 | inductive invariant (`Linked`): no pair twice, members of local SLAM have their constraint, waiting nodes are distinct and in no submap, others are in some submap; what `TrimSubmap` keeps is kept by the whole trimming (`trimming_keeps`); the invariant for the map builder is relative to any later list of builders |
| C121 | `PbstreamInfo.lean`: the loop of the tool with its `std::map` of counts, on messages and (through `ProtoStream.lean`) on bytes | one message changes exactly the counts it is of (a separate relation `Under`); induction over the stream; saved files through C29's `save`, sums over the entries of the pose graph; cut files through C28 |
| C122 | `RelationsText.lean`: the characters of the file, `std::istream >> double` as in libstdc++ (characters taken, then `strtod`), the loop and its `CHECK`, `UnixToCommonTime`, `RollPitchYaw` | a separate grammar of numbers (`Literal`) with its text and value; lemmas on the automaton and on `strtod` by parts of a number; induction over the numbers in the file, eight at a time |
| C123 | `Colors.lean`: `HsvToRgb`, `GetColor` and the conversions between bytes and channels, every operation rounded (`Fp.Format`) | separate closed formula of a color (`ideal`, a wave for each channel); monotonicity of rounding for the exact extremes, error bounds for the rest; hues near `0.69 + 0.618 id` modulo 1 and the multiples of the ratio modulo 1, all of them up to 1000 computed; a geometric lemma that different hues give different channels |
| C124 | `Intensities.lean`: gathering of hits, voxel filters, transformations, `AddAccumulatedRangeData`, `ActiveSubmaps3D::InsertData` with the grids, the problem of `ScanMatch`; poses, random numbers, motion filter and solver are given | points paired with their intensities (`pairs`) through each operation; submaps refine their histories (C22), cells of the intensity grid are sum and number of `values`; induction over the scans |
| C125 | `GroundTruthOfMap.lean`: `PoseGraph::ToProto` with poses, as input of C83; poses, times and which submap objects are finished are given | the invariant of C56 gives the constraints of local SLAM in their order; induction over the nodes (`reps_links`); ids are positions because maps are dense; integrity (C33) for loop closures; `toProto_loops`: the message is that of the loops of C44 |
| C126 | `MapSlices.lean`: `DeserializeAndFillSubmapSlices` on the files of C29; how a grid becomes a texture is given (C68-C70 have it), `FillSubmapSlice` is that of C70 | induction over the records with any slices already made (`fillAll_iff`, `fillAll_spec`); `proto_exact` (C44) and integrity (C33) in the states in which the pose graph is read; `LoadFiles.lean` inverts each loop of the loader (`load_iff`), `LoadedConstraints.lean` the loop over its constraints (`serialized_iff`); `SavedMapPainted.lean` composes `saved_fills` with `known_cell_painted` (C68-C70) for 2D probability grids without pending updates, and with `tsdf_texture` for signed distance grids; `stored_cells_painted` puts `proto_roundtrip` (C17) and `reach_wf` (C14) in between |

Not modelled at all: the numerical solver of Ceres (the problems handed to it are, C71-C73 and C76-C79), gRPC transport, Lua interpreter, cairo
rendering, protobuf wire format and gzip (assumed inverse pairs), point-cloud file formats.

## Disagreements between the code and the properties

Each is proved in Lean with a concrete witness (name in parentheses); the property is then kept as `_partial` or with the
condition that excludes the witness.

* `OrderedMultiQueue::GetBlocker` reads an uninitialised member before the first element (`OMQ.getBlocker_uninitialised`);
  a queue registered late with older data aborts (`OMQ.late_registration_aborts`).
* `MapById` reuses ids after the last element of a trajectory was trimmed (`MapById.appended_id_reused`).
* The cell value "unknown and marked" is lost by the grid conversion (`Prob.bare_marker_not_preserved`).
* `TrajectoryConnectivityState::Connect` aborts for trajectories that were not added (`Conn.connect_untracked_aborts`).
* `CompressedPointCloud` checks unrounded coordinates (`Compressed.bounds_check_insufficient`).
* Distinct voxels can have the same 64 bit key (`Voxel.voxel_collision`); the adaptive filter does not do what its comment says
  (`Voxel.adaptive_gives_too_few`).
* `RangeDataCollator` produces overlapping scans for unordered messages and loses a message (`RangeCollator.per_sensor_order_is_not_enough`,
  `RangeCollator.message_lost`).
* A truncated pbstream can look complete (`ProtoStream.truncation_looks_complete`).
* Saved states that cannot be loaded or are loaded with the wrong options (`Serialization.empty_trajectory_unloadable`,
  `Serialization.deleted_landmarks_unloadable`, `Serialization.options_mixed_up`).
* `WaitForAllComputations` races with callers that add work (`WorkQueue.wait_race_aborts`, `PoseGraphScheduling.wait_race_loses_search`).
* Trajectory states: deleted becomes finished or frozen, frozen takes data, deleting an active trajectory or twice aborts
  (`PoseGraph.deleted_becomes_finished` and the theorems listed for C33).
* `PoseGraph::ToProto` takes the lock several times (`PoseGraph.proto_torn`).
* `OverlappingSubmapsTrimmer2D`: counter wraps around, zero minimum, double cells, undefined behaviour without submaps
  (`Overlap.large_submap_removed`, `Overlap.zero_minimum_removes`, `Overlap.double_cell_displaces`, `Overlap.trim_empty_undefined`).
* `Rigid3::inverse` is wrong for rotations that are not of unit norm (`Rigid.inverse_needs_unit`).
* `PoseExtrapolator` returns stale poses and aborts for free fall and unordered IMU data (`Extrapolator.extrapolate_newest_false`,
  `Extrapolator.free_fall_aborts`, `Extrapolator.unordered_imu_aborts`).
* `ConstraintBuilder::WhenDone` before `NotifyEndOfNode` (`Builder.unnotified_search_lost`).
* `LuaParameterDictionary`: string keys that look like numbers are not checked, other keys are undefined behaviour
  (`Lua.numeric_key_unchecked`, `Lua.other_key_undefined`).
* `FromSeconds` is inexact for 2^54 ticks and more (`Ticks.fromSeconds_inexact`).
* `LocalTrajectoryUploader` loses the partial batch and the queue on shutdown, can upload a batch twice, and drops a batch for one
  item it cannot translate (`Uploader.batch_lost`, `Uploader.queue_lost`, `Uploader.accepted_twice`, `Uploader.untranslated_discards`).
* `Histogram` counts a value twice (`Histo.counted_twice`).
* TSDF insertion aborts for scans with height, small weights are forgotten (`Tsdf.insert_aborts`, `Tsdf.small_weight_forgotten`).
* `PrecomputationGrid3D` aborts at voxel index -8192 (`Fast3D.stack_aborts_at_border`).
* `SubmapController` keeps submaps finished by the first message and hands out incomplete ones
  (`Controller.finished_first_remembered`, `Controller.finished_incomplete`).
* The starting submap index is shared by all uploaded trajectories (`SlamUpload.shared_index_mixes_up`, `SlamUpload.shared_index_aborts`,
  `SlamUpload.null_submap_aborts`).
* Older nodes are never compared with submaps that `FinishTrajectory` finishes (`PoseGraph.earlier_node_never_searched`).
* `AddNode` reads the local-to-global transform and adds the node in two critical sections; an optimization in between misplaces
  the node until the next one (`GlobalPoses.race`).  For a trajectory with an initial pose relative to another trajectory,
  `RunOptimization` computes the old transform from nodes that already have their new poses
  (`GlobalPoses.initial_pose_misplaces`).  Optimizing while a frozen trajectory is being loaded hides submaps and moves frozen
  nodes until loading is complete (`GlobalPoses.moved_while_loading`).
* `AddLandmarkCostFunctions` dereferences `BeginOfTrajectory` of a trajectory that may have no nodes: optimizing aborts if a
  landmark was observed by the newest trajectory before its first node, or by one whose nodes are all trimmed
  (`OptProblem.landmark_without_nodes`, `OptProblem.landmark_before_first_node_aborts`).  An observation at the time of the only
  node is attached to a node of the next trajectory (`OptProblem.landmark_only_node`, `OptProblem.landmark_connects_trajectories`).
* A fixed frame reading at exactly the time of a node is not used if the reading before it has no pose; therefore trimming another
  node can remove the residual of a node that stays (`OptProblem.trim_loses_fixed_frame`).
* `OnLocalSlamResult` and `OnGlobalSlamOptimizations` erase the subscription of a connection that refuses a message from the map
  they are iterating over: undefined behaviour (`Server.refused_undefined`, `Server.refused_undefined_global`).  A client that
  finishes its trajectory twice aborts the server (`Server.finish_twice_aborts`; by `Server.no_abort_partial` the only such
  request).  Data sent before `FinishTrajectory` that still waits in the queue is ignored (`Server.data_before_finish_ignored`).
* The points processors (`Verif.Points`): `PlyWritingPointsProcessor` does not initialize `has_intensities_`, and reads it in `Flush`
  if no point reached the writer; C66 assumes a point, `finished_populated` shows that the model finishes only then.
  `PcdWritingPointsProcessor` does not check that all batches have colours if the first has: `pcd_mixed_colors` is a file that does
  not fit its header.  `StreamFileWriter` tests `bad()` but not `fail()`: if the file cannot be opened all writes are reported as
  successful (`unopened_unnoticed`).  With 10^15 points or more the final header would overwrite the first point; a voxel size that
  is not positive makes the outlier removal loop forever; points outside of the range of the hybrid grid fail its `CHECK`s (these
  are excluded in `Writable` and `Acceptable`).
* **C69** `AddToTextureProto` on a 3D submap without any cell of probability 0.501 or more (for instance a submap in which only misses were
  inserted) computes `INT_MIN - INT_MAX + 1`: undefined behaviour (`xray_empty`).
* **C69** The X-ray texture of a 3D submap is placed with its corner at `max_index * resolution`, but the voxels with index `i` are those
  whose centre rounds to `i`, so that they reach from `i - 1/2` to `i + 1/2`: everything is painted half a voxel too low in x and y
  (`xray_placed`).
* **C70** `CairoPaintSubmapSlices` has `return` where `continue` is needed: one slice without surface (not fetched yet) hides all slices
  with larger ids (`later_slices_lost`).
- **C73** (`rest_drift`, `constant_acceleration`): `IntegrateImu` adds `delta_t * delta_velocity` with the velocity at the end of each step, so that
  the translation for a constant acceleration is `a (T² + Σ dtᵢ²) / 2` instead of `a T² / 2`, while `ExtrapolatePoseWithImu` subtracts exactly
  `g T² / 2` for gravity.  A body at rest therefore is extrapolated to move against gravity by `g Σ dtᵢ² / 2` (for one measurement every 10 ms
  and an extrapolation over 100 ms about 5 mm).  Velocity and rotation are exact, and the optimization problem uses only those.
- **C73** (`equal_times_abort`): measurements with equal times are integrated, but an integration that ends at that time leaves the iterator
  where the next one fails its `CHECK`.  `MapByTime` requires increasing times, the pose extrapolator with IMU does not.
- **C73** (`rotation_norm`): rotation vectors shorter than 0.0001 are converted to quaternions of norm slightly above one, and nothing normalizes
  the product; the square of the norm grows by at most 2.5e-9 per measurement.
- C74: for a point exactly on the border of two cells outside of the map the cell found by shifting and the cell of the moved point differ
  (`border_shift`): RoundToInt rounds halves away from zero, so that the border belongs to the cell on the other side for negative indices.
- C77 (`intensity3_missing`, `problem3_options`): `IntensityCostFunction3D` reads `point_cloud.intensities()[i]` without a check, so that a cloud
  without intensities together with an intensity grid is read past its end; and `Match` only `CHECK`s the number of occupied space weights, the
  intensity options are read with the same index (only index 0 is ever configured).
- C78 (`costField_negative`, `costField_large`): the cubic convolution overshoots: a residual can be -1/8 or 9/8 of the scale although every
  cost is in [0.1, 0.9]; next to obstacles the "cost" of a point may be lower inside the overshoot than at an occupied cell centre.
- **C79** (`tsdfMatch_jump`): the distance jumps to the truncation distance at the border of the known area, so that the automatic derivatives
  handed to the solver are not those of a continuous function there.
- **C79** (`tsdfMatch_concentrated`, `matchTsdf_near`): residuals are multiplied by the number of points and divided by the sum of the weights,
  although the scale is already divided by the root of the number of points; the part of the map in the cost grows with the number of points,
  unlike that of probability grids (`problem2_cost`), where it is bounded by the weight alone.
- **C81** (`bucket_horizontal`): `AddValueToHistogram` is commented to map angles to [0, pi) and vectors and their inverses to the same angle; `while
  (angle > M_PI)` leaves pi alone, so the direction (-1, 0) is counted in the last bucket and (1, 0) in the first one.
- **C81** (`match_not_rotated`): the sort by angle around the centroid starts at the negative axis, so which points are compared depends on the
  orientation of the scan; three points rotated by half a turn have another histogram, and the right rotation gets a score below one.
- **C81** (`contributions`): `last_point_position` only moves when the distance is larger than 0.9; after a counted pair it stays, so the pairs are not
  neighbours in the order.
- **C81** (`computeHistogram_zero`): with a histogram size of zero `Clamp` returns index 0 of a vector without entries.
- Floors (C82): if the second node of a trajectory is more than 2.5 m above or below the first, `SliceByAltitudeChange` pushes a span whose `end_index` was
  never set, and `FindFloors` reads `trajectory.node(-1)` (`detectFloors_none`, `jump_at_start`).  A short part between two parts of one level is added to
  that floor twice (`part_twice`).  A short part next to a floor can be in no floor, since an earlier short part made its level non-empty (`part_lost`).
  Single linkage puts parts of any height difference in one floor (`chain_one_floor`).
- C83/C84: two nodes with the same time make the metrics use the pose of the first one, so that a relation generated from the map can have an error beyond
  the limit on that very map (`same_time_differs`).  The translational error changes when a relation is turned around (`translational_swap_differs`, the
  remark in compute_relations_metrics_main.cc 60-64); the rotational one does not.  Metrics of one relation abort.
- C85: intensities of `RangeData` and of the point clouds of nodes are not stored (`rangeData_exact`, `node_roundtrip`).  A point with a coordinate in
  (-8388.608 m, -8388.6075 m] is rounded to -8388.608 m; the loaded node then fails the `CHECK` of the compression, so a map with such a node can be stored
  and loaded, but not be stored again (`stored_once`, `node_again`).  Messages of timed point clouds with points in the old field and intensities abort
  (`timedCloud_legacy`).  Odometry without a pose is read as a pose with the quaternion 0 (`odometry_unset`).
- C87: `LastConnectionTime` is the time 0 for trajectories that were never connected, so before `global_constraint_search_after_n_seconds` after the epoch
  they are searched locally around a guess that means nothing (`choose_epoch`); with sensor times counted from the epoch this does not occur (`choose_global`).
- C88: `TrajectoryCollator::AddTrajectory` creates a queue only if there is a sensor; for a trajectory whose sensors are all not collated, data that goes to the
  collator makes `at` throw, while `Collator` ignores it (`no_sensors`).  `FinishTrajectory` after `Flush` aborts with both (`finish_again`).  The comment in
  trajectory_collator.h on outputs that are not deterministic holds only across trajectories: for each one the output is that of `Collator` (`same_deliveries`).
- C89: with exactly two events the logged standard deviation is zero divided by zero (`sigma_nan`); a sensor slower than one datum in 15 s never gets a number.
- C90: the set of queues is one of strings, so sensors of different types with one id share a queue, and data that is in order for each of them can abort
  (`same_id_aborts`).  Data that is not collated does not count for the rates.
- C91: two IMUs (in 3D; two odometry sources in 2D as well) with a common time are collated, but `MapByTime::Append` aborts on the second
  (`two_imus_abort`); the documentation of `SensorId` does not say that these types must be unique.
- C92: if the contributions of the samples cancel, `EstimateNormal` takes `atan2(0, 0)`, the angle 0, wherever the sensor is: for samples that coincide with the
  point (`coincident_points`) and for points along a line of sight (`grazing`).  A point without samples gets the direction to the sensor instead.
- C93: candidates are scored with the voxels of the unmoved scan plus the offset.  For a point exactly on the border between two voxels that differs from the voxel
  of the moved point (`cells_border`), since `RoundToInt64` rounds halves away from zero.
- C94: `GenerateDiscreteScans` turns the histogram by the yaw of the node in the submap plus the angle, but the candidate is turned by the angle in the global frame.
  For a submap that is tilted the two differ; upside down they have opposite signs (`upside_down`).
- C94: a scan without points gives 0/0 for every score; nothing is above the minimum, so there is no match (`empty_scan`).
- C95: nodes which have been trimmed are missing in migrated histograms (`trimmed_differs`); a submap none of whose nodes are left keeps an empty histogram, with
  which every scan agrees at every angle (`unconstrained_matches`).
- C96: `MigrateStreamVersion1ToVersion2` writes the new stream without waiting for the work queue of the pose graph.  Constraints, landmark poses, trajectory data and
  sensor data are added by work items, so any stream can lose all of them (`everything_lost`); the constraints are the last item and are lost as soon as one
  item has not been run when the pose graph is read (`constraints_all_or_none`).  Nothing reports this.
- C96: a state from which a trajectory has been deleted, or one of whose trajectories is empty, cannot be migrated (`gaps_abort`).
- C97: `frozen` of `SetLandmarkPose` is not sent, so a landmark frozen by a client is not frozen (`setLandmark_same`); `include_unfinished_submaps` is ignored when
  saving through the stub and unfinished submaps are lost (`remoteSave_eq`, `unfinished_lost`); intensities of range data are lost in local SLAM results
  (`result_same`).  Not implemented at all (the client aborts) are `AddTrajectoryForDeserialization`, `GetAllTrajectoryBuilderOptions`, `GetAllSubmapData`,
  `GetSubmapData`, `GetTrajectoryNodes`, `GetTrajectoryData`, `ToProto`, `SetGlobalSlamOptimizationCallback` and `AddLocalSlamResultData`.
- C98: the stub does not wait for its data to arrive before it finishes a trajectory; the request may overtake all data, which is then ignored (`overtaken`).
  A subscription that arrives after the trajectory was announced as finished is never told (`late_subscriber_never_told`), and the destructor of the stub, which
  joins the thread that reads the results, then hangs in `FinishTrajectory`.
- C99: the second pose after an extrapolation that was solved makes the next one abort unless the first was at the extrapolated time (`two_poses`), and a third one
  makes it abort in any case (`three_poses`), although `AddPose` may be called at any time.  Initial poses that are not after the first measurement are skipped; if all
  are, there is no pose and the next extrapolation takes the last of an empty queue (`initial_poses_too_old`).  An initial pose in the future aborts when the next
  measurement comes (`future_pose_abort`), although the trajectory builder waits for the time of that pose ("Extrapolator is still initializing").  Two poses at one time, which
  follow from two scans at one time, give an initial value that is not a number (`equal_poses`).
- C100 is about mutexes only.  A callback for global optimizations that calls `RunFinalOptimization` takes no mutex in the wrong order, but waits for the work queue that is
  emptied only after the callback returns; and the data that `AddSubmapFromProto` reads after the mutex is given back (`IsTrajectoryFrozen`, pose_graph_2d.cc:716) and the data
  that the optimization reads without it are not protected (documented in the code for the latter).
- C101: a column whose points all lie in one voxel is drawn white, like one without points (`single_voxel_white`), because its weight is the logarithm of 1; a flat cloud seen
  from the side it is thin in gives an empty picture.
- C102: `DrawProbabilityGrid` never returns the null pointer (`draw_pictures`): the cropped limits of an empty grid are one cell, so instead of the warning a grey pixel is
  written (`empty_grid`). A known cell with a probability near 0.5 has the grey of unknown cells (`grey_ambiguous`). Columns outside of an image are not rejected, they are
  pixels of other lines (`column_not_checked`).
- C103: `MAP_BUILDER` in configuration_files/map_builder.lua does not pass the check of `CreateMapBuilderOptions`, because both kinds of trajectory builders are switched off
  (`default_map_builder_aborts`); users have to override one of them, with which it is accepted (`map_builder_accepted`). `GridOptions2D` and `RangeDataInserterOptions` accept the
  invalid values of their enums, which are rejected only where submaps are configured (`kinds_match`).
- C104: no value converts to `kMaxProbability`: the largest one converts to the next smaller float (`max_probability_lost`), so that a saturated cell reports a probability below the
  documented maximum. `kMinCorrespondenceCost` is larger than `kMinProbability` (`bounds_differ`), because both are computed by rounded subtractions.
- C105: beyond 4194 m compressed points are not stable: 8192.005 m decompresses to a float whose raster point is the next one, although it passes the range check (`raster_drift`). The centre
  of a 2D cell is a float while the limits are doubles; far from the origin it lies in another cell (`center_in_other_cell`).
- C106: the comment at pose_graph_2d.cc:866-869, "No other thread is accessing the optimization_problem_, constraints, frozen_trajectories and landmark_nodes_", is false: `GetTrajectoryData`
  reads what `Solve` writes (`trajectoryData_race`), and the callback of `WaitForAllComputations` may insert constraints meanwhile (`constraints_race`). `AddSubmapFromProto` line 716 calls
  `IsTrajectoryFrozen` after the lock is gone; `LoadState` alone can race with its own work item (`loadState_race`). `IsTrajectoryFinished`, `SetGlobalSlamOptimizationCallback` and the
  readers of `num_range_data` take no lock that the writer takes (`isTrajectoryFinished_race`, `callback_race`, `activeSubmaps_race`). The memory inside scan matcher tasks of the constraint
  builder is not part of the model; the callback of the application is assumed to call only functions that do not wait.
- C107: `SetParameterLowerBound(&gravity_constant)` (optimization_problem_3d.cc:446) is called for each trajectory that is not frozen, but the gravity constant becomes a parameter only with the
  first acceleration residual. For a parameter it does not know Ceres ends the program ("Parameter block not found", `ProblemImpl::SetParameterLowerBound`; from Ceres' documentation and source, not part of
  /repo, so this is part of the trusted base for C107). Hence `Solve` aborts while a trajectory has one or two nodes (`young_trajectory_aborts`), and after trimming that leaves no three consecutive
  nodes (`trimming_aborts`). It also aborts if the first measurement is later than the first node (`late_measurement_aborts`; `CHECK` in `IntegrateImu`).
- C108: `std::to_string` prints six digits after the point, so the printed configuration is not the configuration: numbers below 5e-7 become 0 (`small_number_lost`) and all values given by `math.rad`
  change (`degree_changes`). NaN is printed as `nan`, which Lua reads as an undefined global, so the parameter is gone (`nan_lost`). Keys are printed without quotes, so a key that is no name gives a
  text that Lua cannot read (`key_not_a_name`, `key_reserved`). Entries with a numeric string as key or after a gap in an array are not printed (`entries_not_printed`).
  Trusted for C108: Lua 5.2's rules for strings (`%q` and escapes), numbers (`strtod`, correctly rounded) and table constructors, and `%f` printing the correctly rounded decimal; none of these is in /repo.
  That names are no numbers (`NamesAreNoNumbers`) holds for Lua 5.2, which rejects `inf` and `nan` in `lua_isnumber`.
- C109: the yaw of a loaded pose is in (-π, π] whatever it was before (`angle_wrapped`), so poses are the same motion but not the same numbers. Without an optimization after the last node (`Shown`) the
  global pose of the loaded optimization problem is the pose that was shown. Not modelled: landmarks, trajectory data, unfinished submaps that are left out of the file.
- C110: a 2D submap cannot grow beyond 25600 x 25600 cells. A point 12800 cells or more from the submap's origin makes `2 * num_x_cells * 2 * num_y_cells` overflow an `int` in `GrowLimits` (grid_2d.cc:113-147), which
  is undefined behaviour; there is no check. `RayToPixelMask` itself needs a scale of at least 2 and below 2^30 (`scale_one_overflows`, `scale_large_overflows`); the code uses 1000. A result of `std::lround` outside of `int`
  is implementation-defined and wraps as compiled (`wrap_far`). Not modelled with machine integers: 3D grids, precomputation grids.
- C111: "Tried to include ... twice" compares full names as strings, so `x` and `./x` are two files (`two_names`), the main file is not in the list and can be run a second time (`main_again`), and scripts that invent ever
  longer aliases are only stopped by Lua's limit of nested C calls (`endless_inclusion`). A script that loops forever without calling `include` is outside of the model.
- C112: loading a map, frozen or not, freezes every landmark that has a pose (`landmark_gets_frozen`), and if the landmark is already known replaces its pose by the one of the loaded map (`load_saved`). The work
  queue is assumed to be empty when the state is saved: otherwise nodes can be saved whose trajectory data do not exist yet.
- C113: `NormalizeAngleDifference` never returns for doubles above 2^56 in absolute value (`normalize_ends_iff`), `AddValueToHistogram` never for floats above 2^26 (`half_turn_ends_iff`); its comment promises [0, pi), but
  the angle can be pi itself, and small negative angles become pi. `ScaledPowersOf` never ends for some subnormal scales although its checks pass (`powers_run_forever`), the binary search of the adaptive voxel filter
  never for some subnormal lengths (`binary_runs_forever`).
- C114: rounding changes the value of a voxel that lies exactly between two values from 0 to 255: 27306 becomes 212 instead of 213 (`rounding_changes_a_voxel`). With a truncation distance of 2^-26 both bounds of
  the scores are one and `ComputeCellValue` divides by zero (`narrow_range_fails`); no check rejects such options.
- C115: with the common collator (`collate_by_trajectory = false`, the default) a trajectory that is added while others run and sends data older than what was already delivered ends the process by the `CHECK_LE` of
  ordered_multi_queue.cc:112; not when the data is added but when it could be delivered. `late_aborts_iff` gives the exact condition; with `collate_by_trajectory = true` there is none.
- C116: `FinishTrajectory` with an id that does not exist is accepted (map_builder.cc:178-181, collator.cc:36-40, pose_graph_2d.cc:622-648): the pose graph creates a finished trajectory with that id. `SerializeState` then
  indexes `all_trajectory_builder_options_` out of range (io/internal/mapping_state_serialization.cc, undefined behaviour). `unknown_finish` is the witness; the theorems about saving and loading assume that the user names
  existing trajectories.
- C117: `PoseGraph3D::ComputeConstraint` reads the poses from the optimization problem before it looks whether there is anything to do (pose_graph_3d.cc:251-255; in 2D only for a local search). A submap that is loaded by one
  thread while another one finishes its trajectory can be searched before the optimization problem knows it; 3D then aborts, 2D does not (`race_3d`).
- C118: that the overlapping-submaps trimmer does not trim submaps in the middle of a load, which would make a later item of the load throw, rests only on its leaving out submaps without constraints (`overlapping_other`);
  a trimmer of another kind may abort the load (example `badTrim`). `PoseGraphTrimmer` does not say so.
- C119: `PureLocalizationTrimmer` counts the submaps of the optimization problem, to which the newest submap belongs only after its first node was processed; so right after a trimming the pose graph itself may have one
  submap more than `max_submaps_to_keep` (`trimmed` speaks of the optimized ones). Calls of `AddNode` for the same trajectory by two threads, and `DeleteTrajectory`, are outside `Caller`.
- C120: nodes of a map that was loaded frozen are in `node_ids` without constraints (map_builder.cc 360-377 calls `AddNodeToSubmap` only), so the agreement is about nodes of local SLAM; if such a map is saved again, its
  nodes belong to no submap any more. `AddSerializedConstraints` for a node that is still waiting in the queue would add a second constraint silently (example in `Props/SubmapConstraints.lean`); no caller does it.
- C121: pbstream_info.cc 79-85 warns that it skips an unknown record but then dereferences the iterator at the end of the map: a second pose graph or options record, or a kind of a later version, is undefined behavior
  (`unknown_undefined`), although `LoadState` and `LoadStateFromFile` accept such a file (example in `Props/PbstreamInfo.lean`). A file that was cut off is reported on without any warning (`cut_off`).
- C122: an incomplete last relation is dropped silently, and so is a file that ends in a sign or half an exponent (example in `Props/RelationsText.lean`), since `CHECK(relations_stream.eof())` (relations_text_file.cc 57) only tells
  whether the end was reached, not whether the last extraction began a relation.
- C123: color.h 31-32 promises large contrast for every two direct successors; the sum in color.cc 66 has no bits left for a fraction from identifier 13600000 on, and all of them are red (`one_color`). Harmless for identifiers of trajectories.
- C124: `PointCloud::push_back` (point_cloud.cc 52-54) on a cloud with intensities breaks the invariant that the constructor checks; the next transformation aborts and `copy_if` reads after the end (`push_back_breaks`). Its callers in the code use clouds without intensities.
- C124: intensity_cost_function_3d.h 32-36 says that the cost increases where a different intensity has been observed; a voxel where none has been observed counts like one with intensity zero, so bright points are pushed away from unknown space (`unobserved_counts_as_zero`).
- C125: autogenerate_ground_truth.cc 95-96 says that submaps without a representative are at the very end and should not be part of loop closure. If a map is saved without unfinished submaps, the one without a representative is the last finished one, which is searched for loop closures (C57); these are dropped silently (`representatives_of_map`, `relations_of_map`).
- C125: the tool aborts for every map with processed nodes of a second trajectory if unfinished submaps are written (`second_trajectory_aborts`), and if the first constraints were trimmed (`trimmed_aborts`), in particular in every execution once submap 1 was trimmed (`removed_aborts`, with an execution of a `PureLocalizationTrimmer`). Node ids are used as positions in the message. If node 0 was trimmed, all relations are about nodes later than those of the loop closures (`relations_shifted`).
- C126: `WritePbStream` reads the pose graph message first and the submaps later, each under the lock. If a node with a new submap comes in between (`torn_aborts`), or a submap is finished in between and only finished ones are written (`finished_meanwhile_aborts`), the file has a submap without a pose: `submap_poses.at` throws in `DeserializeAndFillSubmapSlices` as well as in `MapBuilder::LoadState`. `WriteStateHandler` of the cloud server saves while SLAM goes on, without unfinished submaps, so that the second case applies. A node that comes after the message and before the nodes are read, which is after all submaps have been written, also makes the file one that cannot be loaded, whether or not its submap is new (`late_node_unloadable`); `torn_loads` says what must not happen meanwhile, for all executions. A trajectory that is deleted between the options and the submaps leaves a file that `LoadState` accepts, whose constraints abort on the worker afterwards (`deleted_meanwhile_aborts`). C29 is about saving while nothing changes.

Seen while reading and not modelled: `MapById::end()` excludes trajectory id INT_MAX; `MapByTime` aborts for equal neighbouring
node times; `PointCloud::push_back` ignores intensities; destroying a `NEW` task that has
dependencies leaves dangling pointers.

## Axioms

Every theorem named in `MANIFEST.json` depends on no axiom other than `propext`, `Classical.choice` and `Quot.sound`
(`#print axioms`). There is no `sorry`, `admit`, `native_decide`, `bv_decide`, `implemented_by` or `unsafe` in the sources.
