# Formal model of OpenUxAS (C++) in Lean 4

The C++ sources in `/repo/src/cpp` were read as text. Nothing was built or run.
Every model definition carries a comment with the file and lines it follows.

## Trusted base

* Lean 4.33.0's kernel. Only the standard axioms `propext`, `Classical.choice`,
  `Quot.sound` may appear. `Verif/Audit.lean` collects the axioms of every
  theorem named in `MANIFEST.json` during the build and fails on any other.
  No `sorry`, no `native_decide`, no `bv_decide`, no own axioms.
* The reading of the C++ source. The theorems are about the model; the
  correspondence of model and code is by inspection, function by function.
* Assumptions about code outside the model, stated where used:
  * ZeroMQ SUB sockets filter by byte prefix, deliver in order per publisher and
    do not lose or duplicate messages. (High-water-mark drops are not modelled.)
  * LMCP (generated message classes, pack/unpack) is not modelled. Messages are
    Lean structures with the fields that the code reads.
  * Floating point is not modelled. Numbers are integers or rationals, and real
    numbers (Mathlib) where sines and tangents are computed (`Sensor/Ground`).
    Times are integers (milliseconds, as the
    code stores them) and geometric predicates (for example "co-located") are
    parameters or decidable relations on abstract positions.
  * `std::string` is `List Char`/`List` of bytes, `std::map` is an association
    list kept with unique keys, integers are unbounded unless the property is
    about their width. The places where width matters say so.
* Threads: the code protects shared state with mutexes or handles messages in
  one thread, with exceptions: the tables of services and of bridges are
  changed without the mutex in places (C206 shows what follows for the
  bridges). Elsewhere schedules are modelled as arbitrary sequences of atomic
  steps, which is an assumption where the mutex is missing
  (`ServiceManager::createService`).

## Conventions

* `Verif/<Area>/Model.lean` holds the model. `Verif/<Area>/Spec.lean` (or the
  head of the property file) holds the independent specification.
  `Verif/<Area>/Lemmas.lean` holds helper lemmas.
  `Verif/<Area>/Props.lean` holds the property theorems, named `Cnn_...`.
* Exceptions, undefined behaviour and endless loops are separate outcomes of
  the model (`Outcome.throws`, `Outcome.ub`, a field `ub` of the state), not
  default values. A state with undefined behaviour stays as it is.
* `Verif/Trace.lean` runs a step function over a list of inputs; "for all
  histories" always means for all such lists, of any length.
* Beside each theorem an `example` shows a concrete case that meets its
  hypotheses.
* When the code violates a property, the file has a theorem
  `Cnn_..._violated` with a concrete witness and a theorem `Cnn_..._partial`
  for the part that does hold, with the missing part named in its comment.

## What is modelled

| Area (`lean/Verif/...`) | Code (`/repo/src/cpp/...`) | Claims |
|---|---|---|
| `Msg` | `Communications/MessageAttributes.h`, `AddressedMessage.h`, `AddressedAttributedMessage.h`: setters, parsers, updates; `Utilities/UxAS_StringUtil.h`: `split` | C01–C05 |
| `Sentinel` | `Utilities/UxAS_SentinelSerialBuffer.cpp`: all but logging | C06–C10 |
| `Net` | `Communications/LmcpObjectNetworkClientBase.{h,cpp}`, `TransportReceiverBase.cpp`, `ZeroMqReceiverBase.cpp`, `ZeroMqAddressedAttributedMessage{Receiver,Sender}.cpp`, `LmcpObjectNetworkServer.cpp` | C11–C14, C18, C19, C59 |
| `Bridge` | the six bridges and the TCP reception in `Communications` | C15–C17, C60–C62 |
| `Manager` | `Services/ServiceManager.cpp`, `Tasks/TaskManagerService.cpp`, `ReplaceAll` | C20, C24, C63–C65 |
| `Validator` | `Services/AutomationRequestValidatorService.cpp` | C21–C23, C54–C57 |
| `Routes` | `Services/RouteAggregatorService.cpp` | C25–C27, C66 |
| `Algebra` | `Utilities/Algebra.cpp`, `AlgebraBase.h` | C28–C31, C52, C53 |
| `Assign` | `Services/AssignmentTreeBranchBoundBase.{h,cpp}` | C32–C38 |
| `PlanBuilder` | `Services/PlanBuilderService.cpp` | C39, C40, C67–C72 |
| `Task` | `Tasks/TaskServiceBase.cpp` | C41, C50, C51, C73–C78 |
| `Waypoint` | `Services/WaypointPlanManagerService.cpp` | C42, C43, C58 |
| `Timer` | `Utilities/UxAS_TimerManager.cpp` | C44, C45 |
| `Services` | `Services/OperatingRegionStateService.cpp`, `SerialAutomationRequestTestService.cpp`, `SendMessagesService.cpp`, `Tasks/AssignmentCoordinatorTaskService.cpp` | C46–C49 |
| `Services/Tracker` | `Tasks/TaskTrackerService.cpp` | C79–C82 |
| `Services/CallTimer` | `Utilities/CallbackTimer.{h,cpp}`: both threads, step by step | C83–C87 |
| `Services/Leash` | `Services/LoiterLeash.cpp`, geometry as a parameter | C88, C89 |
| `Services/SimpleWp` | `Services/SimpleWaypointPlanManagerService.cpp`, geometry as a parameter | C90 |
| `Permute/` | `Utilities/Permute.h`, visitors that always continue | C91 |
| `Options/` | `TaskServiceBase.cpp` (vehicles of a request) and `buildTaskPlanOptions` of loiter, must-fly, dynamic, point, line, area, pattern, angled, blockade, watch, cordon and rendezvous tasks; angles as integers of a free unit, planners as parameters | C92–C101 |
| `Options/EndToEnd`, `Options/OnceProps` | the tasks' options (`Options`) through `AssignmentTreeBranchBoundBase::calculateAssignment` (`Assign`) and `Algebra` | C102 |
| `Batch` | `src/cpp/Services/BatchSummaryService.cpp` | C103–C106 |
| `Visibility` | `src/cpp/Plans/{VisibilityGraph,Polygon,Edge}.cpp`, `Polygon.h`, `src/cpp/Services/RoutePlannerVisibilityService.cpp` | C107–C111 |
| `RoutePlanner` | src/cpp/Services/RoutePlannerService.cpp; VisilibityLib/visilibity.cpp 1678-1687, 1801-1827 (merging, shortest paths are abstract) | C112-C114 |
| `Visilib` | src/cpp/VisilibityLib/visilibity.cpp: points, segments, polygons, environments | C115-C122 |
| `Sensor` | SensorManagerService.cpp | C123, C124, C125 |
| `Services/Status` | StatusReportService.cpp, with the steps of the TimerManager | C126 |
| `Earth` | FlatEarth.cpp, UnitConversions.cpp, Convert.h | C127, C128, C129 |
| `Extend` | RouteExtension.cpp | C130, C131 |
| `Steering` | SteeringService.cpp | C132, C133, C134 |
| `Rendezvous` | RendezvousTask.cpp 85-186, 348-707 | C135, C136, C137 |
| `Search` | CmasiAreaSearchTaskService.cpp 150-185, 360-640, AngledAreaSearchTaskService.cpp 180-240, 347-685, Plans/Edge.cpp, Plans/Polygon.h (intersections), Plans/Position.h | C138, C139, C140 |
| `Pattern` | PatternSearchTaskService.cpp 429-720 (sector and spiral searches) | C141, C142 |
| `Escort` | `EscortTaskService.cpp` (`CalculateTargetPoint`, `DistanceToLine`, `FlipLine`), `DPSS/DpssDataTypes.cpp` (`Segment`) | C143-C145 |
| `Blockade` | `BlockadeTaskService.cpp` (`activeEntityState`, `CalculateCenterBlockingPosition`, `CalculateGimbalActions`), `xyPoint::Rotate` | C146 |
| `Dynamic` | DynamicTaskServiceBase.cpp (states, routes, keep-out zones, options), OverwatchTaskService.cpp, CommRelayTaskService.cpp; the geometry of a zone (membership, projection, distance) is an interface | C147-C153 |
| `Roads` | `OsmPlannerService.cpp`: reading of the roads, graph, A* search, nearest point, route, egress and road point requests; the XML parser, the files written for plots and the Boost queue (any choice among the best) are parameters; numbers are reals, lengths are cut to whole metres | C154-C160 |
| `Stare` | `Utilities/SensorSteering.{h,cpp}`; `activeEntityState` of `PatternSearchTaskService`, `CmasiPointSearchTaskService`, `CmasiAreaSearchTaskService`; `MultiVehicleWatchTaskService.cpp`; a plane in metres, reals for `float` and doubles; elapsed time and the logged text are left out | C161-C164 |
| `Dpss` | `DPSS/DpssUtilities.cpp` (`PreProcessPath`, `ComputeSeperation`), `PlanQuickly.cpp`, `PlanOffset.cpp`; reals for doubles; point ids are left out | C165-C167 |
| `Dpss` (`Steer*`) | `DPSS/SensorSteering2.cpp`, `CoordinateConversions.cpp` (road locations), `Dpss.cpp` (`SetObjective`), for routes in one direction; altitudes are left out | C168 |
| `Dpss` (`Offer*`) | `CmasiLineSearchTaskService.cpp`, `ImpactLineSearchTaskService.cpp` (`isCalculateOption`), without ids and composition (C96) | C169 |
| `Dpss` (`Active`) | line search tasks: `isProcessTaskImplementationRouteResponse`, `activeEntityState`; which of several entries `unordered_multimap::find` gives is a parameter | C170 |
| `Dubins` | `Plans/Trajectory.cpp` 1052-1643 (routes that respect a turn radius), `Plans/Assignment.h` (`dGetDistanceTotal`), `Plans/VisibilityGraph.cpp` 1317-1355 (paths without corners), `Plans/Position.h` 128-134; reals for doubles; the plane is the complex plane, east the real axis | C171-C173 |
| `Clock` | `Utilities/UxAS_Time.{h,cpp}`, `Services/Test_SimulationTime.cpp`; the clock of the machine is a parameter, `timegm` is the Gregorian calendar, `gmtime` an interface; locks are left out, as are calls from several threads | C174-C176 |
| `Config` | `Utilities/UxAS_ConfigurationManager.cpp`, `Communications/LmcpObjectNetworkBridgeManager.cpp` (`initialize`, `createBridge`); the XML parser and reading numbers from text are parameters; logger levels are left out | C177-C179 |
| `Task.Finish` | `isProcessTaskImplementationRouteResponse` of `Tasks/LoiterTaskService.cpp`, `MustFlyTaskService.cpp` and `ImpactPointSearchTaskService.cpp`, on top of `Task` | C180-C182 |
| `Dpss` (`SegMap`) | `DPSS/SegmentMap.cpp`; the third coordinate is left out; nothing else in the repository uses the class | C183 |
| `Log` | `Utilities/UxAS_{LogManager,FileLogger,DatabaseLoggerHelper,HeadLogDataDatabaseLogger}.*`, `UxAS_LoggerBase.h`, `UxAS_XmlUtil.h`; `Services/MessageLoggerDataService.cpp`; of SQLite the insertion of texts | C184-C187 |
| `Diagram` | `Utilities/FileSystemUtilities.cpp`, `Services/AutomationDiagramDataService.cpp`; a file system as lists of directories and files | C188, C189 |
| `Bridge` (`Stream`) | `Communications/ZeroMqAddressedAttributedMessageTcpReceiverSender.cpp`; the stream socket of ZeroMQ is not in the repository and is modelled by its behaviour (`Sock`): a first frame to a peer that is not connected is refused, a first frame without more to come is taken and chooses nobody | C190 |
| `Dubins` (`Corners`, `Round`) | `Plans/VisibilityGraph.cpp` 1306-1530 (`errGenerateWaypoints`), 1540-1974 (`errSmoothPath`), `Plans/Trajectory.cpp` 261-373 (`CalculateTaskHeading`), `Plans/Assignment.h` 435-460 | C191 |
| `Visibility` (`Boundary`) | `Services/RoutePlannerVisibilityService.cpp` 460-544 (`bFindPointsForAbstractGeometry`), `Plans/Waypoint.h` 580-599, `Plans/VisibilityGraph.cpp` 107-121; reals for doubles | C192 |
| `Grid` | `Plans/Polygon.cpp` 48-177 (`InPolygon`, `FindPolygonBoundingBox`), `Plans/CGrid.{h,cpp}`; rational coordinates, ways along an edge as shares of it | C193 |
| `System` | the validator, the route aggregator (without fast planning), the assignment and the plan builder of the parts above, connected by the messages one sends and another receives; the bus is only required to deliver what was sent before | C194 |
| `Bridge` (`ZyreLink`) | `Communications/LmcpObjectNetworkZeroMqZyreBridge.cpp` (settings, whispers, announcements), `ZeroMqZyreBridge.cpp` 205-352, `Utilities/UxAS_Zyre.h`; the Zyre library is assumed to deliver whispers once and in order and headers as they were set | C195 |
| `Visilib` (`Merge`) | `VisilibityLib/visilibity.cpp` 4097-4207 (`find_overlap`, `boost_union`), the merge of `offset_polygons` (1801); the geometry of Boost (validity, distance, union) and `snap_near` are parameters | C196 |
| `Visilib` (`Padding`) | `VisilibityLib/visilibity.cpp` 1801-1954 (`offset_polygons` up to the merge), 1122-1131 (`Angle`), `normalize`, `rotate`, the crossing of two lines; reals for doubles | C197 |
| `Visilib` (`Zones`) | `Plans/VisibilityGraph.cpp` 83-185 (`errExpandAndMergePolygons`), `VisilibityLib/visilibity.cpp` 1801-2008 (`offset_polygons`); the geometry (pieces, union, area, simplicity) is a parameter; connected to the service of C111 | C198 |
| `Loiter` | `Tasks/ImpactPointSearchTaskService.cpp` 207-280 (first part of `isCalculateOption`); reals for doubles, zones as sets with a nearest point of their boundary (C115), degrees left out | C199 |
| `Visilib` (`MergeBlocks`, `PaddingMerge`) | the two parts above together: `VisilibityLib/visilibity.cpp` 1801-2008 and 4097-4207 for zones with the pieces around them; required of Boost: distance zero means a place in common, the union of polygons that meet inside is one polygon, the pieces are valid; `snap_near` changes nothing | C200 |
| `Assign` (`Kept`, `Factorial`) | `Services/AssignmentTreeBranchBoundBase.cpp` 761-923 (`ExpandNode`, `PruneChildren`) with the nodes that exist; the restarted loop of `PruneChildren` as a filter | C201 |
| `Main` | `UxAS_Main.cpp` (command line, order of the start, exit codes, end); whether a step succeeds is a parameter; logging left out | C202 |
| `Assign` (`Limit`) | no new code: `Services/AssignmentTreeBranchBoundBase.cpp` 761-790, 932-937 of the search above, counted | C203 |
| `Manager` (`Start`) | `Services/ServiceManager.cpp` 192-257, 397-476 (`initialize` on the elements from the configuration); which types are registered and whether a service starts are parameters, and so are the ids that other parts of the program take meanwhile | C204 |
| `Manager` (`Run`) | `Services/ServiceManager.cpp` 106-190 (`runUntil`): the main thread as a sequence of looks, any events of the other threads between them, the clock of the system any numbers; logging left out | C205 |
| `Manager` (`Sweep`) | `Communications/LmcpObjectNetworkBridgeManager.cpp` 48-86: the loop that asks the bridges to stop beside the main thread, an entry at a time | C206 |
| `Net` (`Setup`) | `Communications/LmcpObjectNetworkClientBase.cpp` 49-96, `Services/ServiceBase.cpp` 51-106, `Services/ServiceManager.cpp` 427-451: the requests for addresses until a service is started; what its `configure` subscribes to is a parameter, and it cancels nothing | C207 |

Each model file begins with the simplifications that apply to it.

## What is not modelled

* Of the route planning: wind, lengthening of paths and the moving of end points
  in `Plans/Trajectory.cpp`, the smoothing in `Plans/VisibilityGraph.cpp` that is
  never run, `Plans/CGrid.cpp`, and of `DPSS` what is not named in the table.
  Which corners see each other is a parameter of C122.
* How the tasks change their waypoints is a parameter in `Task`; the changes that
  are modelled are named in the table, as are the options of tasks.
* The libraries behind the code: Boost, SQLite, pugixml, LMCP serialisation, Zyre,
  serial ports and ZeroMQ. Where a claim needs one of them, its documented
  behaviour is modelled and the file says so (sockets in `Net` and `Bridge`).
* Floating point arithmetic and the overflow of 64-bit integers.
* Data races. Where the code lets two threads use the same data without a lock
  (validator timers, serial test service, service table) the model takes the
  handlers as atomic and the file says so.
* Everything under `AFRL_INTERNAL_ENABLED` or `STEVETEST`.

## How the claims are proved

| Id | How |
|---|---|
| C01, C04 | equational round trip, list induction |
| C02 | acceptance iff an independent grammar |
| C03 | invariant by induction over the calls |
| C05 | uniqueness of the decomposition |
| C06–C08, C10 | first/last occurrence lemmas, induction on frames and chunks |
| C09 | exact cause of the exceptions, two witnesses |
| C11, C20, C24, C63, C65 | invariants over histories of the managers |
| C12–C14, C59 | refinement of the receive queue to a filter of what was published |
| C15, C60–C62 | decision logic and refinement, both directions |
| C16 | termination measure on crossings of bridges |
| C17 | refinement of the peer table to per-peer sets |
| C18, C19 | induction on the messages, the branch order of the termination loop |
| C21–C23, C54–C57 | invariants over histories, counting of answers |
| C25–C27 | permutation and counting lemmas, invariants over histories |
| C28, C29, C52, C53 | language of the expression as an inductive predicate, structural induction |
| C30, C31 | parser against all ways of writing a tree |
| C32, C33 | arithmetic; induction on texts |
| C34–C37 | the nodes of the search are the schedules of an independent specification; optimality against all of them |
| C38 | exact condition on the list of received messages |
| C39, C40, C67–C72 | invariants over histories of the plan builder |
| C41, C73–C77 | induction over the routes and waypoints |
| C42, C43, C58 | loop invariant and closed form of the segments |
| C44, C45 | simulation of the phases of each timer |
| C46–C49 | invariants over histories; C48 by projection to one request |
| C50, C51, C78 | invariants over histories against the received messages |
| C64 | exact condition under which the replacement is undone |
| C79–C82 | invariants over histories; the working set refined to the latest report |
| C83–C87 | invariant over all interleavings of the two threads |
| C88–C90 | invariant over histories; list induction |
| C91 | in-place rotations refined to lists of choices and orders, by induction |
| C92 | invariant of the table of groups over all configurations |
| C93–C97, C100, C101 | the published text parsed back: the words of the composition equal an independent description (`Means`) |
| C98, C99 | integer arithmetic over sweeps |
| C102 | words of the algebra of a request split by task (shuffle of renamed words); complete runs = words (C28) when options are named once; schedule of C34 permuted to the published list; alternatives of sequences by invariant of runs; concrete violations through the whole `calculateAssignment` |
| C103–C104 | invariant on the pending requests; a request followed through any history; the origin of every pending request |
| C105 | the summaries as a fold over the legs; missions written as ways and tasks |
| C106 | the maps equal what the messages said last; the flags characterised over that |
| C107 | walks of a graph and tables of shortest ways; Dijkstra's algorithm shown to give such tables; the pick over all pairs of visible corners is a minimum |
| C108 | a leg that crosses no side of a convex zone and begins outside never enters it; every edge of the graph is a side or was tested |
| C109 | the sign tests of Edge.cpp related to a common point of two parametrised segments |
| C110 | the two lexicographic extremes of a convex polygon; the scan changes direction twice |
| C111 | the maps equal what the messages said last; the answer unfolded over the requested routes |
| C107, C108 | any admissible walk over corners becomes a walk of the table graph (Complete); half planes of one convex keep-in zone are preserved by every leg (KeepIn) |
| C107 | each leg of a found route is the straight way of two places that see each other (Sound) |
| C112 | the maps equal what the messages said last; the answer unfolded over the requested routes |
| C113 | invariant over histories: environment = build of the stored zones, by congruence in the zones a region names |
| C114 | holes of an environment cover the zones grown, by the signs of areas (a reversed polygon has the opposite area) the first polygon is the boundary; a library of boxes is shown to meet the contract |
| C115 | the foot of the perpendicular minimises a quadratic; the fold over the sides a minimum |
| C116 | the number of sides a ray crosses, by induction over the sides: a closed chain changes side an even number of times, so moving a point off the boundary keeps the parity |
| C117 | if neither segment has an end nearest to the other, the nearest points coincide and the segments cross; conversely by signs |
| C118 | the sides of a rotated or reversed polygon are the same up to order and direction; the shoelace formula telescopes |
| C119 | the scan keeps a corner that stands out; repeatedly halving the sides gives a polygon whose scan never keeps one |
| C114 | the contract is discharged for the modelled geometry (Library), leaving merging and the shortest path |
| C120 | the minimum over all boundaries unfolded |
| C121 | parity is constant along a boundary that is apart from another, so corners stand for all points; two polygons cannot be in each other (an easternmost corner) |
| C122 | invariant of the search (tree = queue + closed nodes, closed nodes final because the estimate is consistent), frontier lemma for optimality, potential argument for the corners dropped while tracing back |
| C114 | the search of C122 discharges the shortest path; a computable test of sight and a plain merging meet what is left (LibraryCases) |
| C123 | induction over the history; the nested loops equal the list of combinations |
| C124 | the loop over angles characterised as an arithmetic progression; fold invariant for the minimum |
| C125 | real trigonometry from Mathlib: the cotangent decreases below the horizon |
| C126 | invariants over all interleavings of messages and the steps of the timer thread |
| C127 | induction over the calls: the state is unset or that of the first position; derivatives of the ellipsoid's meridian from Mathlib |
| C128 | case analysis of the remainder; Mathlib's bounds for pi |
| C129 | properties of the floor |
| C130 | the bisection keeps a bracket; the mean value theorem bounds the error; the arcs are composed in the frame of the segment |
| C131 | induction over the segments and the points; the discretisation is a rotation |
| C132 | the loop as a walk along links whose passed waypoints are distinct; an invariant between missions; on closed routes passing a waypoint brings the leg's end nearer |
| C133 | real trigonometry from Mathlib in the frame of the leg or orbit; commands by induction over the history |
| C134 | induction over the history |
| C135 | start times by induction over the history against a specification that looks at the last message only; extension through C131 |
| C136 | fold over the participants, sums of squares; agreement by permutation; composition with the model of the steering service |
| C137 | the loop follows links over distinct waypoints, so it ends; a declarative list of waypoints ahead that is unique |
| C138 | induction over the rounds of the lane loop; a ring whose corners lie on both sides of a line crosses it at least twice |
| C139 | induction over the legs |
| C140 | convexity: the points between two crossings; lanes and widths by arithmetic; unseen points by distance from all lanes |
| C141 | induction over the legs; a point of the disc lies between two neighbouring legs, distance by the sine of the angle |
| C142 | induction over the rounds; the turn of the spiral next to a point and the two points on either side of its bearing |
| C143 | closed form of the foot of the perpendicular, case analysis of the two thresholds |
| C144 | invariants of the search for the nearest segment and of the walk along the path |
| C145 | invariants of the three folds; witnesses in the plane |
| C146 | rotation to the line of approach, closed form of the equidistant point, error of each special case; ranks as lengths of filtered lists |
| C147 | induction over the history with the clock of each vehicle as lower bound |
| C148 | case analysis; induction over all continuations for vehicles left alone |
| C149 | index-wise over the waypoints |
| C150 | supporting line at the nearest boundary point (convexity), connectedness and the polygon as intersection of half planes |
| C151 | induction over the vehicles |
| C152 | induction over history and window; uniform motion gives equal samples |
| C153 | triangle inequality |
| C154 | induction over the roads and their points; a declarative notion of a piece of road, unique decomposition of lists |
| C155 | the running length as a sum over the prefix of a road |
| C156 | cells of the grid against distances, with truncation towards zero |
| C157 | A* with an estimate that is nearly consistent, invariants over all choices of the queue |
| C158 | the route of C157 expanded piece by piece |
| C159 | invariant of the walk over the points of a piece |
| C160 | case analysis of the six constructions of a line, each a chain of neighbours |
| C161 | a sorted map with `lower_bound`, the Lipschitz bound of a point running along a broken line |
| C162 | `lower_bound` in the map of segments; induction over the turns of a spiral |
| C163 | induction over all events |
| C164 | induction over all messages |
| C165 | induction over the points; the loop with its stored effects refines a greedy relation; a distance that grows by a metre with each point left out |
| C166 | induction over the points |
| C167 | turns as products with `exp`; the loop that puts waypoints together has a decreasing number of points |
| C168 | invariants of inserting points into the road (length, every point along it and the places found so far are kept), then exact shares with tolerances for the thresholds 1e-6 and 1e-10 |
| C169 | induction over the loop through the waypoints; lengths of plans never grow, hence two-point tasks have two-waypoint plans |
| C170 | induction over all messages, for every choice among equal keys; geometry by C168 |
| C171 | turns as products with `exp`; the path laid out in the frame of the two centres is flown part by part and its end compared; case analysis of the folds over the four pairs of circles |
| C172 | the two angles of a turn-straight-turn path are unique, hence equal to those laid out; witness by computing all routes of the four pairs |
| C173 | closed form of the number of waypoints; exact characterisation of the undefined case |
| C174 | induction over the days of the calendar; case analysis of the calibration |
| C175 | division with remainder |
| C176 | induction over the events |
| C177 | invariant over all calls: what is cached is of the loaded document |
| C178 | case analysis |
| C179 | first match; induction over the elements with ids below the next |
| C180-C182 | the invariants of `Task` over all histories, for routes without actions; the end of the list |
| C183 | the nearest of all segments by an invariant of the loop; a point running along a broken line moves no faster than its distance |
| C184 | an independent description of each logger after any history, by induction over the history |
| C185 | invariant over all lines, solved for the files |
| C186 | SQL tokens cost at least their characters, so a text with an apostrophe cannot be one row again; induction over the messages |
| C187 | replacing the last occurrence until there is none is replacing all of them; the measure of the ampersands never falls |
| C188 | closed forms of the file system after all calls, by induction; numbers read back from names |
| C189 | the files of a new directory are the graph of an independent description; what is known is what came last |
| C190 | the draining lemma of C60 with a queue in front; frames on the socket by induction over the peers |
| C191 | the tangent chosen is the one of a path of a turn and a straight line, in complex numbers; the loop that drops places equals a single pass |
| C192 | convex hulls in the complex plane: a disc point as a combination of the centre and two neighbours; half-planes for what is left out |
| C193 | the loop over the cells along an edge refined to a trace; parities of crossings of rays in all four directions and of a segment are the same for a closed polygon; each of the five rules counts such crossings |
| C194 | what each service received from another was sent by it (induction over steps); a plan is traced back within the plan builder to the one assignment it comes from, for any history; distinct ids identify the request |
| C195 | the header is the join of the addresses; C17 for each message in any history; one frame in, one payload out; a frame that waits in the buffer is an invariant |
| C196 | invariant of a pass: what is to be removed lies within a polygon with a smaller number; strong induction over the numbers; removal in falling order is the filter meant |
| C197 | the nearest place of the boundary (compactness) is within an edge, then the rectangle has the place, or a corner, then the place is beyond both edges and within the kite or pentagon of tangents; convex hulls in the complex plane |
| C198 | the fold over the signs of the paddings characterised by a split of the list; the rest by cases |
| C199 | the line through the nearest boundary point of a convex zone supports it, from inside (a ball about the point is within the zone) and from outside; Cauchy-Schwarz |
| C200 | the pairs that are sure to be merged: rectangle and corner, rectangle and next rectangle, meeting inside because a rectangle reaches beyond its ends; each piece has such a partner at most two places before it, which makes the removal fall; with a second zone in between two numbers must rise |
| C201 | the search with its tree refines the search without; induction over nested trees for the pruning; while nothing is found each end is a leaf that is cheap enough, so pruning is the identity |
| C202 | induction over the options as a user means them, any arguments after them; cases over the step that fails |
| C203 | once something is found: an invariant of a round and of the search (not stopped means below the limit); before: step by step the same as the search with the limit 0; without dead ends the first way down finds something, by induction over the depth |
| C199 (depth) | a connected zone that meets no edge of the polygon is behind all edges or beyond one; if it met an edge, then all corners and with them the centre |
| C204 | an invariant over the elements gone through, on top of C177 |
| C205 | induction over the looks; without new services the table only shrinks; a stop of all ends the thread of the manager, so nothing is created after it |
| C206 | an invariant over the steps of the threads: the entries done, the entry come to, the bridges asked |
| C207 | on top of C59: the last request for an address decides |

## Findings

Theorems named `..._violated` prove the negation of a claim by a concrete
witness. The more consequential ones:

* C04: a one-byte payload does not survive the two-part message format.
* C09: the sentinel decoder throws on `stoi` of an empty or large number.
* C13: `removeAllSubscriptionAddresses` does not return for a non-empty set.
* C14: a service whose id is a decimal prefix of the addressed id gets the
  unicast too.
* C19: with the default limits the termination loop never aborts.
* C20, C24: an id that was reserved for a task is given to another service.
* C21, C56: a timer cannot be restarted from its own handler, so requests
  published by a handler have no timeout.
* C26: option messages of other requests are dropped when a matrix is sent; with
  fast planning a request is erased during the loop over the requests.
* C31, C52: unknown objectives dereference a null pointer.
* C37: the cost function setting is never used.
* C39: a vehicle outside the request stalls the plan builder silently.
* C44: stopping one timer removes another with the same expiration time.
* C47: a late response is taken for the response to the next request.
* C48: an assignment can be released twice, the second time without contents.
* C49: send times wrap after 2^32 milliseconds.
* C66: the speed of straight-line plans is always 1 (a shadowed variable).
* C69: overrides are applied to the first task of a vehicle only.
* C73: the second implementation of an option counts the way to it twice.
* C79–C81: with waypoint numbers from 10000 on, the end of a task is reported
  twice, for a task of another vehicle, or at the first waypoint of the task.
* C84, C85: a callback timer can lose a start or a kill; a command given at the
  expiration hits the next start; a restart uses the old callback.
* C87: a periodic callback timer with a time of 0 cannot be destroyed.
* C88: a route response for another vehicle confirms a safe heading.
* C89: the altitude of a safe heading is overwritten by the code of its type; with
  a heading rate the vehicle is sent to latitude and longitude 0.
* C92: a vehicle whose nominal speed or altitude changes stays in its old group too.
* C93: loiter and must-fly tasks offer the vehicles of the task, not of the request;
  a task open to all vehicles publishes an option for none.
* C94: a pattern search offers only one vehicle of each speed and altitude.
* C95: an area search asks for the footprint of the first vehicle of a group.
* C96: the CMASI line search can publish an option that its composition does not
  allow; the impact line search drops a look without a reverse plan even if only
  the forward direction is wanted; with a plan of two points its end heading is 0.
* C97: blockade and watch ignore the wanted number of vehicles.
* C98: a full-turn wedge tries its first heading twice; an area search with a wedge
  above the horizon has no option.
* C99: the impact point search gives costs in seconds.
* C100: a cordon keeps its option numbers from earlier requests, allows nothing when
  the request lists no vehicles, and assigns vehicles that are not eligible.
* C101: a rendezvous of 2 of 3 vehicles at one state throws, is accepted with too few
  vehicles, and depends on the order of a hash table.
* C102: cordon and rendezvous name an option in several alternatives. `Algebra::searchNext` goes on with the first alternative in which something has been executed, so for cordon all but one assignment per first option are unreachable (an unlimited search publishes a suboptimal one), and for rendezvous alternatives are mixed (three vehicles are sent, two to the same state, where two were to meet).
* C104: planning requests of a batch do not carry its operating region; a single task with relationships is answered with times -1 and no planning.
* C105: with relationships and three or more tasks the waypoints of the way to a first task are listed once per following task; tasks without a waypoint between are counted as one; `workingTask` is an `int`, so ids beyond 32 bits are lost.
* C106: a vehicle without state, or a tower known only by its state, counts as in radio range; without a plan the energy reported exceeds what the vehicle has (time -2); a zone conflict is never taken back.
* C107: an unreachable place is reported as success with length -1 from the origin to the origin; when start and end see different components of the graph a sum beyond 32 bits is cast (undefined).
* C108: sides of zones are never tested against other zones, so a route along a keep-in side passes through a keep-out zone; an end inside a keep-out zone is accepted; keep-out circles are inscribed 20-gons, smaller than the circle.
* C109: overlapping collinear segments do not intersect; the intersection point is rounded as an integer would be, half a metre off (used by the area searches).
* C111: an unreachable place costs less than nothing; surface vehicles fly for free (speed 0); changed zones are not seen by regions that came before; a region naming a zone not yet known is dropped; zone ids are truncated to 32 bits.
* C108: a route to an end outside the keep-in zone leaves the zone over one of its corners; no error is reported (C108_leave_violated).
* C113, C114: a changed zone is rebuilt with the zone before it (UpdateRegions runs before the zone is stored); a zone sent after its region is never applied; a changed region is not stored; when no environment can be built (zones for other vehicles, padding mixed) the route is straight through the keep-out zones; a derived air configuration gets no environments; a surface vehicle with another kind of configuration is cast (undefined).
* C119: eliminate_redundant_vertices drops two corners when the corner after the next is within epsilon of the last kept one, so a zone with corners less than half a metre apart (a finely sampled circle) is reduced to nothing, is not simple, and is ignored by the route planner.
* C121: is_simple skips the last side in all comparisons (`0!=(j+1)%n` should only skip the pair of the first and the last side), so a bow tie is simple or not depending on the corner its list begins with.
* C114: a keep-out zone given by dense corners (less than half a metre apart) is passed over.
* C122: the path leaves out the start if that is within epsilon of the next corner.
* C112: Polyline::length counts to the unsigned size less one, so the length of an empty path reads outside the list: if the search finds no path between two places in the environment, what the route planner does is undefined.
* C123: a later configuration of a vehicle is ignored by the sensor manager, which inserts without overwriting.
* C124: without an elevation angle no footprint is ever found, as the value 0 that stands for 'not given' is then taken as specified; angles documented in degrees are taken as radians; an elevation above the gimbal's maximum is used; a horizontal look counts with the altitude as slant range.
* C125: the leading edge is reported at distance 0 when the image reaches the horizon.
* C126: isTimerActive is false while the handler of a timer is being called, so a vehicle state that arrives while a status report is sent starts the report timer a second time; the timer is then queued twice and its key changed while it is in the queue. A state that arrives while the stale handler waits for the lock is marked invalid.
* C127: the equatorial radius is called WGS-84 but is 6378135 m, that of WGS-72; distances depend on the first position ever given, process-wide for CUnitConversions, whose ReInitialize does nothing; longitudes are not taken modulo a full turn, so places on either side of the antimeridian are far apart; the constants for degrees and feet are not exact inverses.
* C128: within 10^-9 of the end of the range the result is below the reference, and normalising it again gives the other end.
* C129: iRound(-2.0) is -1.
* C130: a turn radius of 0 is undefined behaviour; a negative extension makes the path longer by more than twice the radius.
* C131: the inserted waypoints copy the vehicle actions and associated tasks of the waypoint at the end of the segment, so they are repeated; a route that leads back to an earlier waypoint ends at its last waypoint after the extension; a discretisation distance of 0 is undefined behaviour.
* C132: with waypoints accepted from a distance (TurnShort and an acceptance time) a closed route whose waypoints are all within that distance is given up for good, its waypoint taken as the last; a first waypoint to which nothing leads is accepted only within a metre, so a vehicle that flies over it between two states turns back.
* C133: the leg after a loiter starts at its centre for one state and at the waypoint for the next ones; a negative loiter radius leads away from the centre.
* C134: the answer to a sandbox request resets the operating region of the mission being flown to 0.
* C135: routes without a straight piece of six turn radii get one circle or nothing, and the vehicle arrives early; the branch for speed adjustment compares a time with a speed difference so that it keeps routes that no speed can delay enough; once a task ends, the record of the vehicles asked (`m_taskEncountered`) is not erased; an extended route ends at a waypoint that links to itself, so it stays associated with the task.
* C136: the `SpeedOverrideAction` is sent inside a `VehicleActionCommand`, which the steering service searches for flight director actions only: rendezvous speed commands are never followed; line 571 tests the iterator of the vehicle itself instead of the other's; line 598 centres at first + (first - last)/2 instead of between.
* C138: every intersection of a lane with the boundary is reported half a metre further from the origin of the frame, the remains of an integer rounding in `bFindIntersection`; the centre of a polygon is half the difference of its extremes in place of half their sum, and its larger extreme is never below zero.
* C139: the result of `isCalculateRasterScanRoute` is not looked at, so an incomplete plan is requested all the same; an area of another kind gives a request without routes; the first service says nothing when the lanes are too close.
* C140: a strip of up to half a lane spacing on the far side stays unseen; the first service flies a single lane up to two lane spacings and leaves the rotation of rectangles aside; a lane through the first corner of the boundary is flown without length; the tips of pointed areas stay unseen.
* C141: for a negative extent the sector loop steps backwards for ever; half a lane at the end of half a turn can stay unseen; a footprint wider than the disc leaves the task without routes and without an error; the sweep pattern and unknown ones give no route either.
* C142: the distance from the origin of the flat-earth coordinates to the first waypoint is part of the cost; near the centre wide footprints look past a hole; a negative extent reads the last of no waypoints; `m_optionIdVsSensorSteeringSegments` is filled with `insert` and never cleared, so a second request keeps the first one's segments.
* C145: a vehicle exactly on a line of interest is taken to follow no line (`dist > 0.0`), and a line of interest with id 0 is never found.
* C145: `FlipLine` returns false when no segment of the line goes the way of the vehicle forwards, which is when the line most needs reversing; the escort is then put ahead of the vehicle instead of behind it.
* C145: for a vehicle at rest every segment is counted twice in the total length, and the length up to the vehicle includes the segment it is beside in full: a line with one segment is always reversed.
* `EscortTaskService.cpp` line 182 calls unqualified `abs` on a floating point number, which may be the integer function; then every standoff distance below 1.001 m would count as zero.
* C146: the wall of a blockade is off centre by half the standoff distance (`placement - N / 2.0` with ranks from 0); a vehicle that blocks alone is beside the line of approach.
* C146: `TaskServiceBase` calls `activeEntityState` before it adds the vehicle to the active ones, so a vehicle is placed before it is counted and can be sent to the place of another.
* C146: the radius computed for an air vehicle in a blockade is overwritten with 300 m.
* C148: when an overwatch has lost its target (15 s), `activeEntityState` dereferences a null pointer (line 256) if the vehicle was sent somewhere before.
* C148: a vehicle that is within 400 m of the target when this is first computed gets no route, and none later as long as the target stays within 400 m, even if the vehicle goes elsewhere.
* C150: a place is moved off the first zone only; places exactly on a boundary are not moved; only operating region 0 counts; zones wholly inside the polygon around a place are not noticed.
* C151: `buildTaskPlanOptions` clones a null pointer if the overwatch has no (recent) state of its target.
* C152: `deast = ceast - cnorth` (OverwatchTaskService.cpp 188) should be `ceast - peast`: the predicted place is off to the west by the way north.
* C147-C153: `configureTask` ignores the result of `configureDynamicTask`.
* C154: a second road between the same two crossings is dropped, and a point that is not in the file (as at the border of an extract) makes `isBuildGraph` dereference `end()`.
* C155: `runningLength_m` is not reset at the end of a piece: the steps to points not used for planning are counted again in all later edges of the road.
* C156: the search stops at the first square of cells with a point in it; a point in the next square can be much nearer (421 m for 101 m). Cells are cut towards zero, so those at the axes are 200 m wide.
* C157: lengths are cut to whole metres, a route of 1.8 m is preferred to one of 1.5 m.
* C158: the cost is that of the shortest road between two crossings, the waypoints follow the one that was kept; a road with a single point is a planning point without a vertex.
* C159: pieces with both ends outside of the square are not looked at.
* C160: one request with a place far from all roads suppresses the answer to all others; lines go on past a crossing; for two neighbouring points on one piece the line can go the wrong way; crossings come twice.
* C161: two waypoints in a row at the same place divide 0 by 0 and cast the quotient to an integer; a road without length points the sensor at latitude 0, longitude 0.
* C163: only the first configuration and the first plan of an option are used, as `std::map::insert` does not replace; the stream is chosen once for all vehicles, also when the camera was not known; a number that the steering does not know sends the sensor to latitude 0, longitude 0.
* C163: `TaskServiceBase.cpp` 919-921 renumbers the saved waypoints of an option in place, so when an option is implemented a second time the numbers map to those of the mission before.
* C164: the number of vehicles asked for is ignored; every requested vehicle is composed.
* C161: the altitude looked at is that of the end of the segment of the road, from its start on.
* C165: the angle and the distance are tested against the last point left over and the next point only, so a road that bends slowly is cut by any distance.
* C166: `RemoveZeroLengthSegments` subtracts the `y` of the point before from `x`; a plan from (0, 400) to (400, 400) loses its second point and the line search has no option.
* C167: the tasks give DPSS north as `x` and east as `y`, DPSS turns with east as `x`: looking to the right becomes looking to the left. `UseInertialViewAngles` is copied but nothing reads it.
* C167: no intersection is reported as the point (0, 0), which is then tested as an intersection.
* C168: the sensor of a searching vehicle is aimed by position alone; where the route passes a place twice it looks both times at the part of the line for the first pass.
* C169: options of the Impact line search with just two waypoints say that they end heading north.  Route planners plan the way to the next task from there.
* C170: `m_optionIdVsDpss` is an `unordered_multimap` that is never cleared; after a second request to plan, which of the two objectives is found is up to the library (GNU: the last, LLVM: the first). `m_activeDpss` is one per task, so an option given to another vehicle changes where the first one looks.
* C171: the condition of `dCalculateTrajectoryDubins` (1096-1098) ends in a comma and `1.0e-8`, so it is always true.  The first circle is handed to `szMinimumDistanceCircle` by reference and replaced by the second one, direction and all, if their centres are at one place (1168-1173); later pairs start with it.  A vehicle that is to turn back on the spot gets a route of one waypoint, where it is.
* C172: the distance of two centres is rounded to whole metres; for circles that touch, the straight line then begins a little before or after the vehicle and a full turn is added.  Whether three turns are tried is decided with a point that is not in the frame of the heading (1117-1128).
* C174: 30 February is accepted; `gmtime` is tested against year 2016 after `from_time_t`, which overflows from 2262 on; `DiscreteTime` ignores calibrations in the time but `getUtcStartTime` adds them.
* C175: quotients are added in place of the quotient of the sum.
* C176: `getInstance` replaces the clock without a lock when another kind of time is chosen: references that other threads hold dangle.
* C177: `loadXml` clears the flags of the cached documents but not the documents, so they are still returned when the load fails.
* C178: a document without `UxAS` loads; an id is set before the type is looked for; values left out are those of the document before.
* C179: `getDefaultServiceXmlNode` without a type is documented to give all services and gives the first.
* C180: the last waypoint is copied with its actions, so that vehicles loiter twice; `LoiterTaskService.cpp` 121 takes the last of no waypoints.
* C182: `ImpactPointSearchTaskService.cpp` 403-412 gives surface vehicles a last waypoint that leads to itself, so that the base adds none that is not for the task: the task never completes.
* C183: the member `CalculateStarePoint` (`SegmentMap.cpp` 129) subtracts a share of the road from a distance; `Initialize` of an empty road or plan runs over the end of it.
* C185: a limit of messages for a file (`LogFileMessageCountLimit`) has no effect, as `isFileLogger` is never set (`MessageLoggerDataService.h` 105); it would be passed as a flag (line 132 of the `.cpp`).
* C186: the escaping of messages is commented out (`MessageLoggerDataService.cpp` 160): a label with an apostrophe is lost, or writes other rows.
* C187: `escapeXmlAmpersandLessThanGreaterThanChars` finds the ampersand it has just written.
* C188: numbers are matched as exactly four digits (`FileSystemUtilities.cpp` 104, 217), so 10000 is given for ever; `bSaveStringToFile` needs a slash at the end of its path and reports success when it cannot make it.
* C189: `AutomationDiagramDataService.cpp` 257-260 fills the entities into the request that is kept.
* C190: one buffer for all peers; peers are never forgotten (`ZeroMqAddressedAttributedMessageTcpReceiverSender.cpp` 141-148) and the results of `zmq_send` are ignored (240-242), so that one lost peer ends all sending.
* C191: `isSmoothPath` is a local that is always false (`VisibilityGraph.cpp` 1574), so corners are never rounded; `dCalculateFinalHeading_rad` returns 0 for one waypoint, so that after an only corner the route begins northwards; a vehicle on the first corner is to reach it against its own heading (`Trajectory.cpp` 291-294).
* C192: a keep-out circle is replaced by a polygon inside of it; the padding of a keep-in zone is never used (`VisibilityGraph.cpp` 110-112); in doubles twenty steps of `dPiO10()` add up to a little less than `dTwoPi()`, so a circle has a 21st point next to the first.
* C193: a corner of a polygon on a line of the 5 by 5 grid, or on the way from the corner of a cell to the point, makes `CGrid::InPolygon` answer no for points well inside; the upper edge of the box belongs to it (`Polygon.cpp` 130), but has no cell, so `vector::at` throws; two corners less than 1e-9 m apart make the constructor try for ever (the route planner removes corners less than 1 m apart first, `VisibilityGraph.cpp` 106).
* C194: the ids of task automation requests are chosen by tasks and used unchanged; if one is used again after the first was given up, the late plan of the first answers the second. `TaskManagerService.cpp` 394-403 would publish a second `UniqueAutomationRequest` (numbered from 1000) for every `AutomationRequest`, but the service does not subscribe to them.
* C191: for a vehicle that is within 1e-9 m of the first corner, `CalculateTaskHeading` (`Trajectory.cpp` 291) returns its own heading, to which the caller adds half a turn: the route first turns the vehicle round on the spot.
* C195: `zyreWhisperMessageHandler` takes one payload per whisper, so after one payload with the terminator in it every message comes one message late; `zmsgPopstr` uses `delete` on memory from `malloc` (`UxAS_Zyre.h` 36).
* C196: `boost_union` removes merged polygons in the order in which they were noted (`visilibity.cpp` 4185-4188), which need not fall: with the pairs (0,3) and (1,2) of five keep-out zones the fifth is removed and the fourth kept, so the planner routes through the fifth; with four an element behind the end is erased. The pairs that cannot be merged are noted in reverse (4180) and compared with the pairs found (4150), so two pairs of zones that touch at a corner make the loop endless.
* C197: a corner whose edges have a cross product below 1e-8 (nearly straight, or turning back) gets a triangle between the two rectangles and not a round end; the tip of a spike is not padded at all. Keep-in zones are never shrunk (`VisibilityGraph.cpp` 110-112).
* C198: `offset_polygons` (`visilibity.cpp` 1812-1827) lets the first non-zero padding decide and refuses all that comes after with another sign, zero included: keep-out zones with the paddings 5, 0 make the visibility planner refuse the region (`errPolygonMerging`), 0, 5 do not; the graph of the region sent before stays in use.
* C199: only the first zone in conflict is looked at, so between two zones the loiter is moved from one into the other and back with every heading; each call changes the task's own location (`ImpactPointSearchTaskService.cpp` 272-280), so the options of one request may have different ends; a point exactly on a boundary is not moved (normalising a null vector). Without a desired action the radius is 0 and the loiter is moved onto the boundary only. The zones are those known when the task was configured (98-102), of any operating region.
* C200: one padded zone of any shape, or padded zones apart from each other, are merged properly. But if a second zone reaches into the padding of a first one and not to the first edge of the first (the edge from its first to its second corner), the order of removal is not falling and `boost_union` erases an element behind the end of the list (`visilibity.cpp` 4184-4188): two squares two metres apart, the lower padded with five metres, are enough (`C200_squares_violated`).
* C201: `ExpandNode` marks every node without children as a leaf (`AssignmentTreeBranchBoundBase.cpp` 859-865), also when tasks are left, and `PruneChildren` keeps leaves that are cheaper than the best assignment (918-921): exactly those from which nothing follows. If a task cannot be reached, the whole tree (factorial in the number of tasks, `C201_factorial_violated`) is built and kept; the limit on the number of nodes is not looked at before a complete assignment exists (933-936).
* C202: `-cfgPath` or `-runUntil` as the last argument reads `argv[argc]` (`UxAS_Main.cpp` 92-98); `-runUntil 0` means the configured time; after a failure of the service manager or of the bridges `main` returns without `terminate`, and the destructor of the server detaches its thread (`LmcpObjectNetworkServer.cpp` 24-30), which goes on with a freed object. The service manager announces `StartupComplete` (`ServiceManager.cpp` 237) before the bridges are built (`UxAS_Main.cpp` 262), so it is not seen outside.
* C203: the limit on the number of nodes is checked in each trial (`AssignmentTreeBranchBoundBase.cpp` 932-937), but the round of trials is finished, and without a complete assignment it is not checked: with one task out of reach beside `n` others every limit is passed (`n! - 1` nodes at least).
* C199: the circle of the loiter is replaced by a polygon with twenty corners in it (`ImpactPointSearchTaskService.cpp` 246-255), so a circle with a radius of a kilometre may reach twelve metres into a zone without being moved (`C199_polygon_violated` shows four).
* C204: if one configured service cannot be started, the service manager goes on with those after it, reports failure and leaves the others running (`ServiceManager.cpp` 205-227); `main` then returns (C202).
* C205: if a stop of all was asked for and the time is over before the services have ended, `runUntil` waits for none of them (`ServiceManager.cpp` 127: the wait is only for a run without a request); it reports "All Services have been Terminated" in any case. The time is measured with the clock of the system, so setting it back prolongs the run.
* C206: `terminateAllBridges` goes through the table of bridges before the mutex is taken (`ServiceManager.cpp` 559, 562), while the main thread may erase entries (`LmcpObjectNetworkBridgeManager.cpp` 78): use of an erased entry. In the same way `createService` adds to the table of services without the mutex (`ServiceManager.cpp` 344).
* C207: an entity passed in for a new service (`ServiceManager.cpp` 436-451, used by `createTestServices`) replaces its own address but not the address of all services of the entity.

## Test of the theorems

`seeded/LOG.jsonl` has one line per wrong program that was tried: the model is
edited in a scratch copy as a realistic bug would, everything is rebuilt and the
theorems that fail are noted. Where a claim had become false and its theorem
still held, the theorem was made stronger; the line names it.
