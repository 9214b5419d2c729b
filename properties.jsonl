{"id": "C01", "title": "Message wire round trip", "statement": "Building an AddressedAttributedMessage from an address, the five attributes and a payload and then parsing getString() with setAddressAttributesAndPayloadFromDelimitedString gives a valid message with exactly the same address, attributes and payload, even when the payload itself contains the delimiters '$' and '|'.", "quantifier": "all addresses without '$', all attribute values without '$' or '|' (content type, descriptor, entity id and service id non-empty, group possibly empty), all non-empty byte payloads", "why_tests_cant": "Payloads are arbitrary binary; only a proof covers every placement of the delimiters in address, attributes and payload.", "anchors": ["src/cpp/Communications/AddressedAttributedMessage.h: setAddressAttributesAndPayload, setAddressAttributesAndPayloadFromDelimitedString", "src/cpp/Communications/MessageAttributes.h: setAttributes, setAttributesFromDelimitedString", "src/cpp/Utilities/UxAS_StringUtil.h: split"]}
{"id": "C02", "title": "Message parser accepts exactly the wire grammar", "statement": "The parser accepts a byte string exactly when it has the form address$contentType|descriptor|group|entityId|serviceId$payload with no '$' in the first two sections, exactly five '|' separated attributes of which only the group may be empty, and a non-empty payload; the fields it reports re-concatenate to exactly the received bytes, and the reported address is non-empty.", "quantifier": "all byte strings that can arrive from a socket", "why_tests_cant": "The set of malformed strings is infinite.", "anchors": ["src/cpp/Communications/AddressedAttributedMessage.h: parseAddressedAttributedMessageStringAndSetFields", "src/cpp/Communications/MessageAttributes.h: parseMessageAttributesStringAndSetFields"]}
{"id": "C03", "title": "A valid message always serialises its own fields", "statement": "After any sequence of calls of the setters, the parser, updateSourceAttributes and updateAddress, whenever isValid() is true getString() is the delimited concatenation of what the getters report, and that string parses back to the same fields.", "quantifier": "all finite histories of public calls on one message object with arbitrary arguments", "why_tests_cant": "Histories are unbounded and mix failing and succeeding calls; bridges use updateSourceAttributes/updateAddress on received messages before forwarding.", "anchors": ["src/cpp/Communications/AddressedAttributedMessage.h: updateSourceAttributes, updateAddress", "src/cpp/Communications/MessageAttributes.h: updateSourceAttributes"]}
{"id": "C04", "title": "Two-part message round trip", "statement": "Building an AddressedMessage from a valid address and a non-empty payload and parsing its string gives back the same address and payload.", "quantifier": "all addresses without '$' and all non-empty payloads", "why_tests_cant": "Every payload length has to be covered, including boundary lengths.", "anchors": ["src/cpp/Communications/AddressedMessage.h: setAddressAndPayload, setAddressAndPayloadFromDelimitedString"]}
{"id": "C05", "title": "Split is the inverse of join", "statement": "Splitting a string on a delimiter returns the unique list of delimiter-free tokens whose delimiter-join is the string (k delimiters give k+1 tokens, including empty leading, inner and trailing tokens).", "quantifier": "all strings, all delimiter characters", "why_tests_cant": "Every placement of delimiters must be covered.", "anchors": ["src/cpp/Utilities/UxAS_StringUtil.h: split"]}
{"id": "C06", "title": "Sentinel framing round trip for every chunking", "statement": "If a sender frames a sequence of payloads with createSentinelizedString and the resulting byte stream is handed to getNextPayloadString in arbitrary chunks, draining after each chunk, the receiver obtains exactly that sequence of payloads in order.", "quantifier": "all finite sequences of non-empty payloads, all ways of cutting the byte stream into chunks", "why_tests_cant": "TCP and serial links cut the stream at arbitrary points; the combinations of payload content and cut points are infinite.", "anchors": ["src/cpp/Utilities/UxAS_SentinelSerialBuffer.cpp: createSentinelizedString, getNextPayloadString"]}
{"id": "C07", "title": "Sentinel framing resynchronises after garbage", "statement": "If arbitrary junk (line noise or the tail of a broken frame) precedes an intact frame in the receive buffer, then, once any segment completed by the junk is discarded, the intact frame's payload is still delivered unchanged.", "quantifier": "all junk byte strings and all frames", "why_tests_cant": "Junk is arbitrary, including partial sentinels.", "anchors": ["src/cpp/Utilities/UxAS_SentinelSerialBuffer.cpp: getNextPayloadString"]}
{"id": "C08", "title": "Sentinel framing delivers only checked payloads", "statement": "Every non-empty payload returned by getNextPayloadString was present in the received bytes between the sentinels of one frame whose declared size and declared checksum equal the size and checksum of the returned payload; in particular a frame in which a single payload byte was altered is never delivered.", "quantifier": "all byte streams, all histories of calls", "why_tests_cant": "Corruption patterns are unbounded.", "anchors": ["src/cpp/Utilities/UxAS_SentinelSerialBuffer.cpp: getNextPayloadString, calculateChecksum"]}
{"id": "C09", "title": "Sentinel decoder never throws", "statement": "getNextPayloadString returns normally for every received byte stream.", "quantifier": "all byte streams, all histories of calls", "why_tests_cant": "A peer controls the bytes; a single stream that makes std::stoi throw loses data or terminates a receive thread.", "anchors": ["src/cpp/Utilities/UxAS_SentinelSerialBuffer.cpp: getNextPayloadString (std::stoi calls)"]}
{"id": "C10", "title": "Draining the sentinel decoder empties it of complete frames", "statement": "Repeatedly calling getNextPayloadString(\"\") until it returns the empty string, as the receive loops do, always terminates and leaves no complete valid frame undelivered in the buffer.", "quantifier": "all buffer contents", "why_tests_cant": "The buffer is arbitrary; a corrupted frame in front of a good one is the interesting case.", "anchors": ["src/cpp/Utilities/UxAS_SentinelSerialBuffer.cpp: getNextPayloadString", "src/cpp/Communications/ZeroMqAddressedAttributedMessageReceiver.cpp: getNextMessage"]}
{"id": "C11", "title": "Network client ids are unique", "statement": "No two network clients in a process (services, bridges, and services created later with an id obtained from getUniqueNetworkClientId) are ever given the same id, and message ids drawn from getUniqueEntitySendMessageId never repeat.", "quantifier": "all interleavings of constructing clients and drawing ids", "why_tests_cant": "It concerns every interleaving of id-drawing operations.", "anchors": ["src/cpp/Communications/LmcpObjectNetworkClientBase.h: getUniqueNetworkClientId, getUniqueEntitySendMessageId", "src/cpp/Communications/LmcpObjectNetworkClientBase.cpp: constructor"]}
{"id": "C12", "title": "A service receives exactly what it is subscribed to", "statement": "After any sequence of adding and removing subscription addresses, the receiver forwards a published message to its service exactly when the message address begins with a currently subscribed address and the message was not sent by the service itself; messages are handed over in publication order with no loss or duplication.", "quantifier": "all histories of subscribe/unsubscribe calls and publications", "why_tests_cant": "Histories are unbounded; prefix matching makes the set of matching addresses infinite.", "anchors": ["src/cpp/Communications/TransportReceiverBase.cpp", "src/cpp/Communications/ZeroMqReceiverBase.cpp", "src/cpp/Communications/ZeroMqAddressedAttributedMessageReceiver.cpp: getNextMessage"]}
{"id": "C13", "title": "Removing all subscriptions terminates", "statement": "removeAllSubscriptionAddresses returns for every subscription set and leaves it empty.", "quantifier": "all subscription sets", "why_tests_cant": "Termination for all inputs is not testable.", "anchors": ["src/cpp/Communications/TransportReceiverBase.cpp: removeAllSubscriptionAddresses"]}
{"id": "C14", "title": "Unicast reaches only the addressed service", "statement": "A message sent to the unicast address of a service (entity id, service id) is delivered to that service, and to no other service that subscribed only to its own unicast address.", "quantifier": "all entity ids and service ids", "why_tests_cant": "Address strings are matched by prefix; the property must hold for every pair of decimal ids.", "anchors": ["src/cpp/Communications/LmcpObjectNetworkClientBase.h: getNetworkClientUnicastAddress", "src/cpp/Communications/ZeroMqReceiverBase.cpp: addSubscriptionAddressToSocket"]}
{"id": "C15", "title": "Bridges export only local traffic and respect the filters", "statement": "The subscribe/push, publish/pull and serial bridges pass a message to the outside only if it originates from the bridge's own entity where the bridge demands it, its address is not on the non-export list, and pass a message to the inside only if it is valid and its address is not on the non-import list; payload, content type and descriptor are never changed.", "quantifier": "all messages, all bridge configurations", "why_tests_cant": "All combinations of message attributes and configuration.", "anchors": ["src/cpp/Communications/LmcpObjectMessageReceiverPipe.cpp", "src/cpp/Communications/LmcpObjectNetworkSubscribePushBridge.cpp", "src/cpp/Communications/LmcpObjectNetworkPublishPullBridge.cpp", "src/cpp/Communications/LmcpObjectNetworkTcpBridge.cpp", "src/cpp/Communications/LmcpObjectNetworkSerialBridge.cpp"]}
{"id": "C16", "title": "No message circulates forever between bridged entities", "statement": "When entities are connected by bridges, one published message causes only finitely many bridge crossings.", "quantifier": "all messages, all finite sets of bridged entities, all delivery schedules", "why_tests_cant": "Needs every schedule of forwarding steps.", "anchors": ["src/cpp/Communications/LmcpObjectNetworkSubscribePushBridge.cpp", "src/cpp/Communications/LmcpObjectNetworkTcpBridge.cpp"]}
{"id": "C17", "title": "Zyre bridge delivers to each matching peer at most once", "statement": "For each internal message the Zyre bridge whispers to exactly the peers one of whose advertised subscriptions is a prefix of the message address, once per peer, in every history of peers entering and exiting; peers that have exited get nothing.", "quantifier": "all histories of peer ENTER/EXIT events with arbitrary subscription lists, all messages", "why_tests_cant": "Histories of membership events are unbounded and a peer may advertise several matching subscriptions.", "anchors": ["src/cpp/Communications/LmcpObjectNetworkZeroMqZyreBridge.cpp"]}
{"id": "C18", "title": "Kill and terminate of a network client", "statement": "A network client stops processing exactly when it receives a KillService addressed to its id or its own handler asks to stop; it never processes a message after that; messages are processed in order, each once, and an exception thrown by one handler call does not lose later messages.", "quantifier": "all message sequences and all handler behaviours", "why_tests_cant": "Handler behaviour and message sequences are arbitrary.", "anchors": ["src/cpp/Communications/LmcpObjectNetworkClientBase.cpp: executeNetworkClient, executeSerializedNetworkClient"]}
{"id": "C19", "title": "Shutdown watchdog escalates", "statement": "While waiting for a client thread to stop, the termination loop warns after the warn limit and aborts after the abort limit.", "quantifier": "all running times of the thread being stopped", "why_tests_cant": "Depends on unbounded elapsed time.", "anchors": ["src/cpp/Communications/LmcpObjectNetworkClientBase.cpp: executeNetworkClient termination loop"]}
{"id": "C20", "title": "Service manager tracks exactly the live services", "statement": "After any history of create-service requests, service terminations and clean-up passes, the service manager's table contains each created service until it has terminated and been cleaned up, under a unique id, and a successful create request means the service is in the table; a KillService for every service asks every tracked service to stop.", "quantifier": "all histories of create/terminate/clean-up/kill events", "why_tests_cant": "Unbounded histories with id collisions.", "anchors": ["src/cpp/Services/ServiceManager.cpp: createService, removeTerminatedServices, processReceivedLmcpMessage"]}
{"id": "C21", "title": "Validator has one request in flight and preserves order", "statement": "The automation request validator publishes the next UniqueAutomationRequest only after the previous one was answered or timed out, and publishes admitted requests in the order in which they became ready; requests waiting for task initialisation are released in arrival order.", "quantifier": "all finite histories of requests, configurations, states, task messages, responses and timer expirations", "why_tests_cant": "Property of all message interleavings.", "anchors": ["src/cpp/Services/AutomationRequestValidatorService.cpp"]}
{"id": "C22", "title": "Validator answers each request exactly once", "statement": "Every request handed to the validator receives at most one response of the right kind carrying its own identity; when nothing is pending or waiting each received request has been answered exactly once.", "quantifier": "all finite histories of requests, task messages, responses and timer expirations", "why_tests_cant": "Property of all message interleavings, in particular overlapping timeouts.", "anchors": ["src/cpp/Services/AutomationRequestValidatorService.cpp: HandleAutomationRequest, HandleAutomationResponse, SendResponse, OnResponseTimeout, OnTasksReadyTimeout, sendNextRequest"]}
{"id": "C23", "title": "Validator admission check is sound", "statement": "A request is published for planning only if every vehicle in it has a known configuration and a known state (or planning state), every task in it is known and initialised, and the operating region and its zones are known.", "quantifier": "all histories and all requests", "why_tests_cant": "Property of all orders in which knowledge arrives.", "anchors": ["src/cpp/Services/AutomationRequestValidatorService.cpp: isCheckAutomationRequestRequirements, checkTasksInitialized"]}
{"id": "C24", "title": "Task manager keeps one service per task", "statement": "At any time at most one task service is alive per task id; when a task is re-sent the old service is killed before the new one is created, RemoveTasks kills exactly the services of the listed known tasks, and a task whose prerequisites are known gets a service.", "quantifier": "all histories of Task, RemoveTasks, area/line/point-of-interest and entity messages", "why_tests_cant": "Unbounded histories with re-sent and removed tasks.", "anchors": ["src/cpp/Tasks/TaskManagerService.cpp"]}
{"id": "C25", "title": "Route aggregator requests every needed route", "statement": "For each vehicle of a request the route aggregator asks for exactly one route from the vehicle to each task option the vehicle is eligible for and exactly one route from each such option to each other such option, with pairwise distinct route ids.", "quantifier": "all requests, all numbers of vehicles and options, all eligibility relations", "why_tests_cant": "Unbounded numbers of vehicles, tasks and options.", "anchors": ["src/cpp/Services/RouteAggregatorService.cpp: BuildMatrixRequests"]}
{"id": "C26", "title": "Route aggregator sends one complete cost matrix per request", "statement": "A cost matrix is sent for a request once, only when route plans for all of its routes were received, it contains one entry per requested route with the endpoints of that route, and other requests in progress are not disturbed.", "quantifier": "all interleavings of several requests, task options and route plan responses", "why_tests_cant": "All interleavings of concurrent requests.", "anchors": ["src/cpp/Services/RouteAggregatorService.cpp: CheckAllTaskOptionsReceived, CheckAllRoutePlans, SendMatrix"]}
{"id": "C27", "title": "Route aggregator answers route requests completely", "statement": "A RouteRequest is answered exactly once, with a response containing exactly one plan response per vehicle, only after all vehicles' plan responses arrived.", "quantifier": "all interleavings of route requests and plan responses", "why_tests_cant": "All interleavings.", "anchors": ["src/cpp/Services/RouteAggregatorService.cpp: HandleRouteRequest, CheckAllRoutePlans, SendRouteResponse"]}
{"id": "C28", "title": "Process algebra enumerates exactly the allowed task orders", "statement": "Starting from a parsed algebra string, the sequences obtained by repeatedly choosing one of the objectives that searchNext offers are exactly the prefixes of the words of the process algebra expression (sequential = concatenation, alternative = choice, parallel = interleaving), and searchNext returns nothing exactly when the executed sequence is a complete word.", "quantifier": "all algebra expressions with distinct objectives in which every operator has an operand, all texts of them, all executed sequences", "why_tests_cant": "Infinitely many expressions and interleavings.", "anchors": ["src/cpp/Utilities/Algebra.cpp: searchNext, nextActions, operatorNode, actionNode"]}
{"id": "C29", "title": "searchNext never repeats or invents an objective", "statement": "Every objective offered by searchNext occurs in the expression and has not been executed.", "quantifier": "all expressions and all executed lists", "why_tests_cant": "Infinitely many expressions and lists.", "anchors": ["src/cpp/Utilities/Algebra.cpp: nextActions"]}
{"id": "C30", "title": "Algebra parser round trip", "statement": "Writing an algebra expression in the documented textual form and parsing it with initAlgebraString yields the same expression.", "quantifier": "all finite expression trees over all known objective ids", "why_tests_cant": "Infinitely many nested expressions.", "anchors": ["src/cpp/Utilities/Algebra.cpp: initAlgebraString, parseFormula"]}
{"id": "C31", "title": "Algebra parser is safe on every string", "statement": "initAlgebraString either fails cleanly or produces a tree; it does not dereference null for any input string.", "quantifier": "all strings", "why_tests_cant": "All strings, including unknown ids.", "anchors": ["src/cpp/Utilities/Algebra.cpp: parseFormula"]}
{"id": "C32", "title": "Task-option identifiers are unambiguous", "statement": "Combining a task id and an option id into one identifier can be undone and distinct (task, option) pairs get distinct identifiers.", "quantifier": "all task ids and option ids", "why_tests_cant": "All 64-bit pairs.", "anchors": ["src/cpp/Services/AssignmentTreeBranchBoundBase.h: getTaskAndOptionId, getTaskIdFromTaskOptionId, getOptionIdFromTaskOptionId"]}
{"id": "C33", "title": "Composition rewriting replaces exactly the option references", "statement": "Rewriting a task's composition string replaces every option reference p<n> by p<task*100000+n> and leaves everything else unchanged, and relationship strings have each task reference replaced by that task's expression; malformed strings are reported instead of throwing.", "quantifier": "all composition and relationship strings and all option sets", "why_tests_cant": "All strings.", "anchors": ["src/cpp/Services/AssignmentTreeBranchBoundBase.cpp: isInitializeAlgebra"]}
{"id": "C34", "title": "Assignments are feasible", "statement": "Every task assignment list published by the assignment service is a complete allowed order of the process algebra in which every option is assigned to a vehicle that is eligible for it and reachable (a travel time is known), with assignment times that accumulate travel and task durations per vehicle.", "quantifier": "all requests, option sets, cost matrices and search limits", "why_tests_cant": "Unbounded instances.", "anchors": ["src/cpp/Services/AssignmentTreeBranchBoundBase.cpp: ExpandNode, NodeAssignment, CalculateAssignment"]}
{"id": "C35", "title": "Exhaustive branch and bound is optimal", "statement": "With an unlimited search (negative number of nodes) the published assignment minimises the latest vehicle completion time over all complete allowed orders and vehicle choices, and an assignment is found whenever one exists.", "quantifier": "all expressions, cost matrices and vehicle sets", "why_tests_cant": "Optimality over exponentially many schedules of unbounded instances.", "anchors": ["src/cpp/Services/AssignmentTreeBranchBoundBase.cpp: ExpandNode, NodeAssignment, calculateAssignmentCostBase"]}
{"id": "C36", "title": "Limited search still returns a feasible best-so-far", "statement": "With the default search limit the service returns the best complete assignment it visited, and returns one whenever its best-first dive reaches one; visiting more nodes never makes the result worse.", "quantifier": "all instances, all limits", "why_tests_cant": "Unbounded instances.", "anchors": ["src/cpp/Services/AssignmentTreeBranchBoundBase.cpp: ExpandNode, NodeAssignment"]}
{"id": "C37", "title": "Cost function setting is honoured", "statement": "With the CUMULATIVE cost function the assignment minimises total cost and with MINMAX the largest vehicle cost.", "quantifier": "all instances", "why_tests_cant": "All instances.", "anchors": ["src/cpp/Services/AssignmentTreeBranchBoundBase.cpp: calculateAssignmentCostBase, configure"]}
{"id": "C38", "title": "Assignment runs exactly once per ready request", "statement": "In every arrival order of the automation request, the task plan options and the cost matrix the assignment is computed exactly when the last needed message for the request arrives, once, using the messages received for that request.", "quantifier": "all interleavings of the messages of any number of requests", "why_tests_cant": "All interleavings.", "anchors": ["src/cpp/Services/AssignmentTreeBranchBoundBase.cpp: processReceivedLmcpMessage, isAssignmentReady"]}
{"id": "C39", "title": "Plan builder builds each vehicle's plan in assignment order", "statement": "For each request the plan builder asks tasks for implementation in the order of the assignment list for each vehicle, each mission command it publishes is the concatenation of the responses in that order, with each segment's last waypoint linked to the first waypoint of the next, and the response is published once after all assignments were implemented.", "quantifier": "all assignment lists and response histories", "why_tests_cant": "All histories of responses, including duplicates.", "anchors": ["src/cpp/Services/PlanBuilderService.cpp"]}
{"id": "C40", "title": "Plan builder handles duplicate and unsolicited responses", "statement": "A TaskImplementationResponse that repeats an already consumed response id, or has an unknown one, does not change the plan.", "quantifier": "all histories", "why_tests_cant": "All histories.", "anchors": ["src/cpp/Services/PlanBuilderService.cpp: processTaskImplementationResponse"]}
{"id": "C41", "title": "Waypoint numbering forms a chain", "statement": "The waypoints of a task implementation response are numbered consecutively from the requested starting number, every waypoint's next number is the number of a waypoint in the list, and the list ends in a waypoint that loops to itself.", "quantifier": "all sequences of route plan waypoint lists returned by the route planner", "why_tests_cant": "All numbers and shapes of routes, including co-located waypoints.", "anchors": ["src/cpp/Tasks/TaskServiceBase.cpp: processImplementationRoutePlanResponseBase"]}
{"id": "C42", "title": "Mission segments cover the plan with overlap", "statement": "Splitting a mission command into segments of at most N waypoints with overlap M loses no waypoint, keeps the order, gives consecutive segments the configured overlap, and every segment can be entered: each waypoint of the plan belongs to a segment.", "quantifier": "all mission lengths, all N and M", "why_tests_cant": "All lengths and settings.", "anchors": ["src/cpp/Services/WaypointPlanManagerService.cpp: isInitializePlan"]}
{"id": "C43", "title": "Following a segmented mission reaches the end", "statement": "A vehicle that reports reaching waypoints in order is served each segment that contains its next waypoints and is never sent the same segment twice for one report.", "quantifier": "all missions and all progress histories", "why_tests_cant": "All progress histories.", "anchors": ["src/cpp/Services/WaypointPlanManagerService.cpp: isGetCurrentSegment, processReceivedLmcpMessage"]}
{"id": "C44", "title": "Timers are independent", "statement": "Starting, disabling or destroying one timer never changes whether another timer is active or when it fires.", "quantifier": "all histories of timer calls and callback executions", "why_tests_cant": "Depends on coincidences of expiry times between timers under any schedule.", "anchors": ["src/cpp/Utilities/UxAS_TimerManager.cpp"]}
{"id": "C45", "title": "A timer fires as configured", "statement": "A started single-shot timer fires exactly once after its delay unless disabled, destroyed or restarted; a periodic timer fires once per period; a destroyed or disabled timer does not fire until restarted; due timers fire in expiry order.", "quantifier": "all histories of timer calls, elapsed times and schedules of the worker thread", "why_tests_cant": "All schedules.", "anchors": ["src/cpp/Utilities/UxAS_TimerManager.cpp"]}
{"id": "C46", "title": "Operating regions track the zones", "statement": "The published operating region lists each currently active keep-in and keep-out zone exactly once, in every history of zone creation, update and removal.", "quantifier": "all histories of keep-in, keep-out and remove messages", "why_tests_cant": "Unbounded histories.", "anchors": ["src/cpp/Services/OperatingRegionStateService.cpp"]}
{"id": "C47", "title": "Serial request test service has one outstanding request", "statement": "Automation requests are forwarded one at a time in arrival order; the next one is forwarded only after a response or a timeout, and none is lost or duplicated.", "quantifier": "all histories of requests, responses and timeouts", "why_tests_cant": "All histories.", "anchors": ["src/cpp/Services/SerialAutomationRequestTestService.cpp"]}
{"id": "C48", "title": "Assignment coordination waits for all participants", "statement": "A coordinated automation request is released exactly once, when coordination from every required participant arrived or the waiting time expired, with the entity states and task lists of the participants, in every arrival order.", "quantifier": "all arrival orders of coordination messages, requests and timeouts", "why_tests_cant": "All interleavings.", "anchors": ["src/cpp/Tasks/AssignmentCoordinatorTaskService.cpp"]}
{"id": "C49", "title": "Scheduled messages are sent the configured number of times", "statement": "The message sending service sends each configured message its configured number of times, not before its send time, at the configured period, and stops once all are sent.", "quantifier": "all message configurations and clock schedules", "why_tests_cant": "All clock schedules.", "anchors": ["src/cpp/Services/SendMessagesService.cpp"]}
{"id": "C50", "title": "Task service reports activity and completion consistently", "statement": "A task service publishes TaskActive for a vehicle only when an assigned vehicle begins a waypoint of the task, publishes TaskComplete only after it was active, and alternates the two, in every history of vehicle states.", "quantifier": "all histories of entity states and automation responses", "why_tests_cant": "All histories.", "anchors": ["src/cpp/Tasks/TaskServiceBase.cpp: processReceivedLmcpMessage (EntityState)"]}
{"id": "C51", "title": "Task options are published when all routes arrived", "statement": "A task publishes its TaskPlanOptions for a request exactly once, after the route responses for all of the routes it asked for have arrived, in every arrival order.", "quantifier": "all arrival orders and groupings of route plan responses", "why_tests_cant": "All arrival orders.", "anchors": ["src/cpp/Tasks/TaskServiceBase.cpp: processOptionsRoutePlanResponseBase"]}
{"id": "C52", "title": "Predecessor queries are exact", "statement": "After an algebra string has been parsed, searchPred for a declared objective returns exactly the executed objectives that a sequential operator puts before it, and these come before it in every allowed order.", "quantifier": "all strings, trees, executed lists and objectives", "why_tests_cant": "Infinitely many expressions and histories.", "anchors": ["src/cpp/Utilities/Algebra.cpp: initPredsRec, searchPred, findActionIndexviaActionID"]}
{"id": "C53", "title": "Random shuffling keeps the allowed orders", "statement": "Randomly shuffling the algebra tree never changes the set of allowed task orders, whatever the random numbers and the probability.", "quantifier": "all trees, random number sequences and probabilities", "why_tests_cant": "All trees and random sequences.", "anchors": ["src/cpp/Utilities/Algebra.cpp: randomlyShuffleTree, randomlyShuffleChildren"]}
{"id": "C54", "title": "Validator admission check is complete", "statement": "A request all of whose vehicles, tasks, operating region and zones are known (a planning state may stand in for a vehicle's state) is never refused on arrival; any other request is refused at once with an error response of its own kind.", "quantifier": "all histories and all requests", "why_tests_cant": "Property of all orders in which knowledge arrives and all combinations of references.", "anchors": ["src/cpp/Services/AutomationRequestValidatorService.cpp: isCheckAutomationRequestRequirements, HandleAutomationRequest"]}
{"id": "C55", "title": "Request for all vehicles needs a complete vehicle", "statement": "A request that names no vehicle is published for planning only if at least one vehicle has both a known configuration and a known state.", "quantifier": "all histories and all requests", "why_tests_cant": "The check compares two sets of arbitrary size; tests use the same vehicle in both.", "anchors": ["src/cpp/Services/AutomationRequestValidatorService.cpp: isCheckAutomationRequestRequirements"]}
{"id": "C56", "title": "Requests handed to the validator do not wait for ever", "statement": "While a request is in flight the expiration of the response time answers it with an error and publishes the next one; while requests wait for task initialisation the expiration of the task time answers and removes the first of them; a timer without such a request does nothing.", "quantifier": "all histories", "why_tests_cant": "Property of all interleavings of messages with timer expirations, including expirations in a row.", "anchors": ["src/cpp/Services/AutomationRequestValidatorService.cpp: OnResponseTimeout, OnTasksReadyTimeout, sendNextRequest, checkTasksInitialized", "src/cpp/Utilities/UxAS_TimerManager.cpp: startSingleShotTimer"]}
{"id": "C57", "title": "Validator does not leave requests lying", "statement": "Whenever no request is in flight, no admitted request is waiting to be published unless one of the tasks of the first waiting request is not initialised; when all tasks are initialised every received request has been answered.", "quantifier": "all histories", "why_tests_cant": "Progress over all interleavings.", "anchors": ["src/cpp/Services/AutomationRequestValidatorService.cpp: sendNextRequest, checkTasksInitialized"]}
{"id": "C58", "title": "Additions to the waypoints of a mission segment", "statement": "When a plan is cut into segments, the last waypoint of the plan gets exactly the configured additions (loiter action, gimbal action, speed 0 also for the loiter action, link back to the first waypoint), the last waypoint of every other segment gets a loiter action exactly when configured, and no other waypoint changes.", "quantifier": "all plans, all settings", "why_tests_cant": "All combinations of settings, plan lengths and segment sizes.", "anchors": ["src/cpp/Services/WaypointPlanManagerService.cpp: isInitializePlan"]}
{"id": "C59", "title": "Requested subscriptions take effect", "statement": "Whenever a network client adds or removes a subscription address, in its constructor, in configure, in initialize or start or while it runs, the client is subscribed accordingly once it runs.", "quantifier": "all sequences of adding and removing addresses around the steps of the start of a client", "why_tests_cant": "Every point in the life of a client at which a request can be made, and every order of requests.", "anchors": ["src/cpp/Communications/LmcpObjectNetworkClientBase.cpp: addSubscriptionAddress, removeSubscriptionAddress, initializeNetworkClient, initializeAndStart", "src/cpp/Services/BatchSummaryService.cpp: initialize"]}
{"id": "C60", "title": "TCP bridge delivers every framed message once and in order", "statement": "When the messages sent by one TCP bridge arrive at the other in arbitrary pieces, the receiving bridge publishes on its inside exactly the messages that its rules let in, with the configured alias and source, each once and in the order sent, and goes on receiving.", "quantifier": "all sequences of messages, all ways of cutting the byte stream into pieces, all bridge settings", "why_tests_cant": "The ways of cutting a stream are unbounded; a local test nearly always receives a message in one piece.", "anchors": ["src/cpp/Communications/LmcpObjectNetworkTcpBridge.cpp:executeTcpReceiveProcessing", "src/cpp/Communications/ZeroMq/ZmqAttributedMsgSenderReceiver.cpp:receive", "src/cpp/Communications/ZeroMq/Receivers/MsgReceiverSentinel.cpp:receive"]}
{"id": "C61", "title": "TCP server sends to exactly the connected clients", "statement": "A TCP server bridge sends each message exactly once to every client that is connected at that time and to no client that has disconnected.", "quantifier": "all histories of connections, disconnections and data of any number of clients", "why_tests_cant": "Histories of connections are unbounded and tests use one client.", "anchors": ["src/cpp/Communications/ZeroMq/Receivers/ZmqTcpReceiver.cpp:receive", "src/cpp/Communications/ZeroMq/Senders/ZmqTcpSender.cpp:send"]}
{"id": "C62", "title": "Zyre bridge keeps its own subscriptions and follows those of its peers", "statement": "At every time a Zyre bridge is subscribed on the inside to the addresses it needs itself (its own id, KillService, the addresses in its configuration) and to those advertised by present peers, and to nothing else.", "quantifier": "all histories of peers entering and exiting with any advertised addresses", "why_tests_cant": "Histories are unbounded and depend on what other machines advertise.", "anchors": ["src/cpp/Communications/LmcpObjectNetworkZeroMqZyreBridge.cpp:zyreEnterMessageHandler", "src/cpp/Communications/LmcpObjectNetworkZeroMqZyreBridge.cpp:zyreExitMessageHandler"]}
{"id": "C63", "title": "A new task service is told everything that is known", "statement": "The message that asks for a task service carries, once per id, exactly the entity configurations, entity states, keep-in and keep-out zones and operating regions reported last before the task, the area, line or point of interest that the task refers to as reported last, and for an escort task all lines of interest and the current mission of every vehicle.", "quantifier": "all histories of messages to the task manager and all tasks", "why_tests_cant": "Unbounded histories of reports that replace each other.", "anchors": ["src/cpp/Tasks/TaskManagerService.cpp: processReceivedLmcpMessage"]}
{"id": "C64", "title": "The service XML survives the trip from the task manager to the service manager", "statement": "Replacing < and > before the XML of a new service is sent and replacing them back on receipt gives the text again exactly when it contains neither &lt; nor &gt;; the replacement terminates for every text; the service manager then appends each object on its own line and closes the element.", "quantifier": "all texts", "why_tests_cant": "All texts, including those in which an ampersand stands before an escaped character.", "anchors": ["src/cpp/Utilities/UxAS_StringUtil.h: ReplaceAll", "src/cpp/Tasks/TaskManagerService.cpp", "src/cpp/Services/ServiceManager.cpp: processReceivedLmcpMessage"]}
{"id": "C65", "title": "Task options: general ones, then those of the id, else those of the type", "statement": "The options passed to a task service are those configured for all tasks followed by those configured for the id of the task if there are any, and otherwise those configured for its type, in the order of the configuration.", "quantifier": "all configurations of task options and all tasks", "why_tests_cant": "All combinations of entries with and without id and type.", "anchors": ["src/cpp/Tasks/TaskManagerService.cpp: configure, processReceivedLmcpMessage"]}
{"id": "C66", "title": "Straight-line plans use the vehicle's speed", "statement": "With fast planning, the route aggregator reports for a ground vehicle the straight-line distance divided by the nominal speed from the vehicle's configuration (1 if there is none) as the route cost in milliseconds.", "quantifier": "all routes, all configurations", "why_tests_cant": "All combinations of routes, distances and speeds.", "anchors": ["src/cpp/Services/RouteAggregatorService.cpp: EuclideanPlan"]}
{"id": "C67", "title": "Each task is planned from where the previous one of the vehicle ends", "statement": "Each TaskImplementationRequest carries the operating region of the request, and as start position, heading, time and first waypoint number those at which the vehicle's latest implemented task ends (waypoint number one more than its last); for the first task of a vehicle, waypoint number 1 and the planning state given in the request, or the last known position projected ahead. It lists where every other vehicle of the request is planned to be at that point.", "quantifier": "all assignments, all histories in which the tasks answer in turn", "why_tests_cant": "All interleavings of vehicles and all response contents.", "anchors": ["src/cpp/Services/PlanBuilderService.cpp: processTaskAssignmentSummary, sendNextTaskImplementationRequest, processTaskImplementationResponse"]}
{"id": "C68", "title": "Missions are consecutively numbered linked lists", "statement": "If every implementation response numbers its waypoints consecutively from the number it was asked to start with and links each to the next, then every mission command published is numbered 1, 2, 3, ..., starts at waypoint 1 and each waypoint names the next one in the list.", "quantifier": "all assignments and responses, any number of tasks and vehicles", "why_tests_cant": "Any number of tasks and vehicles in any order.", "anchors": ["src/cpp/Services/PlanBuilderService.cpp: sendNextTaskImplementationRequest, processTaskImplementationResponse"]}
{"id": "C69", "title": "Speed and altitude overrides reach every waypoint", "statement": "The speed and altitude given in an ImpactAutomationRequest for a vehicle and a task (or task 0, for all tasks) are those of every waypoint of that vehicle for that task in the plan of that request, and of no other plan.", "quantifier": "all override lists, assignments and histories", "why_tests_cant": "All combinations of overrides, tasks and requests.", "anchors": ["src/cpp/Services/PlanBuilderService.cpp: processReceivedLmcpMessage, processTaskImplementationResponse"]}
{"id": "C70", "title": "Configured loiters and turn types are applied to every plan", "statement": "With the option to override the turn type every waypoint of every plan has the configured turn type. With the option to add loiters, each mission of a plan without loiters ends in one, at the altitude and speed of its last waypoint.", "quantifier": "all plans", "why_tests_cant": "All plans, including the empty one and those for several vehicles.", "anchors": ["src/cpp/Services/PlanBuilderService.cpp: checkNextTaskImplementationRequest, AddLoitersToMissionCommands"]}
{"id": "C71", "title": "Mission command ids are unique", "statement": "No two mission commands that the plan builder ever publishes have the same command id.", "quantifier": "all histories", "why_tests_cant": "All histories with any number of requests.", "anchors": ["src/cpp/Services/PlanBuilderService.cpp: processTaskImplementationResponse"]}
{"id": "C72", "title": "Assignments and responses that cannot be planned are reported", "statement": "A TaskAssignmentSummary for an unknown request, without tasks, or for a request naming a vehicle whose state is unknown is answered by an error status that names the request or vehicle, changes nothing else and starts no planning; any other starts planning without an error. A response without waypoints to an outstanding request is reported in an error status.", "quantifier": "all histories", "why_tests_cant": "All histories and vehicle lists.", "anchors": ["src/cpp/Services/PlanBuilderService.cpp: processTaskAssignmentSummary, processTaskImplementationResponse, sendError"]}
{"id": "C73", "title": "Final time of a task implementation", "statement": "The final time of a task implementation response is the start time of the implementation request plus the cost published for the option plus the cost of the route that leads to the start of the task.", "quantifier": "all requests, sets of options with routes, arrival orders of the route answers, vehicle reports in between and answers for the implementation", "why_tests_cant": "All orders and all costs; the second implementation of one option and implementations that overlap are rare in tests.", "anchors": ["src/cpp/Tasks/TaskServiceBase.cpp: buildAndSendImplementationRouteRequestBase", "src/cpp/Tasks/TaskServiceBase.cpp: processImplementationRoutePlanResponseBase"]}
{"id": "C74", "title": "Cost of a task option", "statement": "The cost published for a task option is the sum of the costs of the routes asked for it if all of these are positive, and at least the maximum cost if one of them is not.", "quantifier": "all sets of options, all numbers and orders of routes and all costs", "why_tests_cant": "All orders in which a failed route can come between good ones.", "anchors": ["src/cpp/Tasks/TaskServiceBase.cpp: processOptionsRoutePlanResponseBase"]}
{"id": "C75", "title": "One implementation response for an implementation request", "statement": "A task service sends at most one task implementation response for each task implementation request it receives, and sends one when the routes it asked for have arrived.", "quantifier": "all histories of messages", "why_tests_cant": "All histories, including repeated and late route answers and other requests in between.", "anchors": ["src/cpp/Tasks/TaskServiceBase.cpp: processImplementationRoutePlanResponseBase"]}
{"id": "C76", "title": "Altitude and speed of the waypoints of a task", "statement": "All waypoints of a task implementation response have the nominal altitude, altitude type and speed of the configuration of the vehicle, and the response has no waypoints exactly if there is no configuration of an eligible vehicle.", "quantifier": "all histories of messages, all routes", "why_tests_cant": "All histories, including configurations that change.", "anchors": ["src/cpp/Tasks/TaskServiceBase.cpp: processImplementationRoutePlanResponseBase", "src/cpp/Tasks/TaskServiceBase.cpp: processReceivedLmcpMessage (EntityConfiguration)"]}
{"id": "C77", "title": "Waypoints name the task they are for", "statement": "If the route planner associates no tasks with waypoints, every waypoint of a task implementation response is associated with no task or with just the task implemented, and at least one is associated with it.", "quantifier": "all histories of messages, all routes", "why_tests_cant": "All shapes of routes, also with waypoints that are merged, and all ways to take up a task again.", "anchors": ["src/cpp/Tasks/TaskServiceBase.cpp: processImplementationRoutePlanResponseBase"]}
{"id": "C78", "title": "A task taken up again is offered only to the vehicle that left it", "statement": "If a task service answers an automation request at once with an option for taking up the task again, this is its only option, and only a vehicle of the request that has been on the task and was given an implementation of this option is eligible; a request that includes the task is always answered.", "quantifier": "all histories of messages and all requests", "why_tests_cant": "All histories and all waypoints at which a task may be left.", "anchors": ["src/cpp/Tasks/TaskServiceBase.cpp: processReceivedLmcpMessage (UniqueAutomationRequest)"]}
{"id": "C79", "title": "The end of a task is reported when the vehicle leaves it", "statement": "When a vehicle has reported a waypoint of its mission that belongs to a task with an end, and its next report is of a waypoint of the same mission that does not belong to the task, exactly one TaskComplete for the task and the vehicle is sent.", "quantifier": "all histories of tasks, missions and vehicle states, all vehicles, missions, waypoints, tasks and iteration orders of the unordered set", "why_tests_cant": "All interleavings of the reports of several vehicles, and all orders in which an unordered set may be gone through.", "anchors": ["src/cpp/Tasks/TaskTrackerService.cpp: HandleVehicleState, HandleMissionCommand"]}
{"id": "C80", "title": "Only a task that was worked on is reported complete", "statement": "A TaskComplete is sent for a vehicle only if, since the latest mission command to that vehicle, the vehicle was on a waypoint of the task and its present report is of a waypoint that is not of the task, or the vehicle has just come to the end of a mission whose last task this is; and no report gives the same TaskComplete twice.", "quantifier": "all histories of tasks, missions and vehicle states and all inputs", "why_tests_cant": "A universal statement about what is not sent, over all histories.", "anchors": ["src/cpp/Tasks/TaskTrackerService.cpp: HandleVehicleState, HandleMissionCommand"]}
{"id": "C81", "title": "The last task of a mission that ends in a loop", "statement": "If the last waypoint of a mission leads to itself, the first report of it after the command gives exactly one TaskComplete, for the last task of the mission, if that task has an end; while the vehicle stays there it is not sent again.", "quantifier": "all histories, missions, vehicles and waypoint numbers", "why_tests_cant": "All missions and all histories before and after the command.", "anchors": ["src/cpp/Tasks/TaskTrackerService.cpp: HandleVehicleState, HandleMissionCommand"]}
{"id": "C82", "title": "Tasks without an end are never reported complete", "statement": "A TaskComplete is sent only for a task received with an end (not a watch, blockade, cordon, escort, or a loiter without a duration), only for the vehicle whose state was received, and only if that vehicle has been given a mission.", "quantifier": "all histories of tasks, missions and vehicle states and all inputs", "why_tests_cant": "A universal statement about what is not sent, over all histories.", "anchors": ["src/cpp/Tasks/TaskTrackerService.cpp: processReceivedLmcpMessage, HandleVehicleState"]}
{"id": "C83", "title": "A callback timer does not expire early", "statement": "The callback for expiration comes only after the time the timer was started with has passed since the start, whatever commands are given in between; and if the clock has passed the expiration time and no command is waiting, the callback comes with the next round of the timer's thread.", "quantifier": "all sequences of calls, all interleavings of the two threads and all times of a clock that does not go back", "why_tests_cant": "All interleavings of two threads and all clock values.", "anchors": ["src/cpp/Utilities/CallbackTimer.cpp: CallbackTimerExecutitve, StartCallbackTimer"]}
{"id": "C84", "title": "One callback for each start of a timer", "statement": "A timer that is not periodic calls back at most once for each start, with the callback given to that start; a start while the timer runs cancels it with a callback and starts anew with the new callback; no callback follows a cancellation until the next start.", "quantifier": "all sequences of calls and all interleavings of the two threads", "why_tests_cant": "All interleavings of two threads.", "anchors": ["src/cpp/Utilities/CallbackTimer.cpp: CallbackTimerExecutitve, StartCallbackTimer", "src/cpp/Utilities/CallbackTimer.h: class comment"]}
{"id": "C85", "title": "Commands to a running timer are obeyed", "statement": "KillTimer ends a running timer without a callback, CancelTimer ends it with one callback for the cancellation, ResetTime makes the whole time run again; a command acts only on the run of the timer for which it was given.", "quantifier": "all sequences of calls and all interleavings of the two threads", "why_tests_cant": "The races are between single accesses of two threads.", "anchors": ["src/cpp/Utilities/CallbackTimer.cpp: KillTimer, CancelTimer, ResetTime, CallbackTimerExecutitve"]}
{"id": "C86", "title": "Extending a timer", "statement": "ExtendTime moves the expiration to the given time from now, unless it is later already; it never makes the timer expire earlier, and does not change the period of a periodic timer.", "quantifier": "all timers, extensions and times", "why_tests_cant": "All times and interleavings.", "anchors": ["src/cpp/Utilities/CallbackTimer.cpp: ExtendTime, CallbackTimerExecutitve"]}
{"id": "C87", "title": "A timer can be destroyed", "statement": "The destructor of a timer returns: the thread ends after the kill command.", "quantifier": "all timers, calls and interleavings", "why_tests_cant": "A statement about all continuations of an execution.", "anchors": ["src/cpp/Utilities/CallbackTimer.cpp: ~c_CallbackTimer, CallbackTimerExecutitve"]}
{"id": "C88", "title": "A vehicle is sent to a safe loiter only after the route there was confirmed", "statement": "When a safe-heading action asks for a new heading, the leash service commands the loiter only after the route planner answered the request the service made for this very action with a direct route (one or two waypoints); the command is that of the latest action, is sent at most once, and is sent whenever the confirmation arrives.", "quantifier": "all histories of vehicle states, configurations, actions and route responses, in any order and with any ids", "why_tests_cant": "whether a response belongs to the request depends on ids and the interleaving of actions, responses to earlier requests and responses meant for other services", "anchors": ["src/cpp/Services/LoiterLeash.cpp: processReceivedLmcpMessage"]}
{"id": "C89", "title": "The loiter commanded is the one asked for", "statement": "The loiter commanded has the altitude, speed, radius and tasks asked for (else the vehicle's nominal ones), and lies at the lead distance ahead in the heading asked for; the route that is checked starts at the latest place of the vehicle and ends beyond that loiter at the same altitude.", "quantifier": "all histories and all field values of actions and configurations, any geometry", "why_tests_cant": "requires all combinations of the option flags of the action", "anchors": ["src/cpp/Services/LoiterLeash.cpp: processReceivedLmcpMessage"]}
{"id": "C90", "title": "The simple waypoint manager passes on one mission per response, with at least two waypoints", "statement": "For each automation response the first mission of the configured vehicle is sent once and nothing else; it is unchanged unless it has a single waypoint, in which case a second one is appended that the first leads to; a mission whose waypoints lead to one another keeps that.", "quantifier": "all histories, all responses with any number of missions and waypoints", "why_tests_cant": "missions of any length for any number of vehicles in any order", "anchors": ["src/cpp/Services/SimpleWaypointPlanManagerService.cpp: processReceivedLmcpMessage"]}
{"id": "C91", "title": "Every choice and order of d elements is visited once, and the range is left as it was", "statement": "Calling the permutation utility over a range of n elements with depth d at most n calls the visitor with exactly the arrangements of d elements of the range, n(n-1)…(n-d+1) calls in all; with different elements each ordered choice is visited exactly once; likewise each combination is visited exactly once in the order of the range; afterwards the range has its original order.", "quantifier": "all ranges of any length and element type, all depths up to the length", "why_tests_cant": "the number of arrangements grows factorially and the in-place rotations differ with every length and depth", "anchors": ["src/cpp/Utilities/Permute.h: for_each_permutation", "src/cpp/Utilities/Permute.h: for_each_combination", "src/cpp/Utilities/Permute.h: rotate_discontinuous"]}
{"id": "C92", "title": "A request offers a task to exactly its configured, eligible vehicles, each once", "statement": "When a unique automation request arrives, the vehicles a task works out options for are exactly the vehicles that are eligible for the task, have reported a configuration and are listed by the request (all of them if it lists none); each appears once, in the group of its latest nominal speed and altitude.", "quantifier": "all eligible lists, all sequences of entity configurations, all vehicle lists of requests", "why_tests_cant": "configurations arrive repeatedly in any order before the request; the groups depend on the entire history", "anchors": ["src/cpp/Tasks/TaskServiceBase.cpp: processReceivedLmcpMessage"]}
{"id": "C93", "title": "A task for one vehicle offers each vehicle each heading as a separate alternative", "statement": "For loiter, must-fly, dynamic and point-search tasks the allowed orders of the published composition are exactly the single published options; their ids differ; every vehicle of the request is offered every heading exactly by the options of its speed and altitude.", "quantifier": "all vehicles, speeds, altitudes, view-angle wedges, standoff distances", "why_tests_cant": "numbers of groups, wedges and headings are unbounded and multiply", "anchors": ["src/cpp/Tasks/LoiterTaskService.cpp: buildTaskPlanOptions", "src/cpp/Tasks/MustFlyTaskService.cpp: buildTaskPlanOptions", "src/cpp/Tasks/DynamicTaskServiceBase.cpp: buildTaskPlanOptions", "src/cpp/Tasks/CmasiPointSearchTaskService.cpp: buildTaskPlanOptions", "src/cpp/Tasks/ImpactPointSearchTaskService.cpp: buildTaskPlanOptions"]}
{"id": "C94", "title": "An area search offers each vehicle each look, and one of them is to be carried out", "statement": "For area, pattern and angled area searches the published options have different ids, there is one for each vehicle of the request and each look (heading and elevation), and the allowed orders are exactly the single options.", "quantifier": "all vehicles, wedges, elevation limits and looks", "why_tests_cant": "numbers of groups, vehicles and looks are unbounded and multiply", "anchors": ["src/cpp/Tasks/CmasiAreaSearchTaskService.cpp: buildTaskPlanOptions", "src/cpp/Tasks/PatternSearchTaskService.cpp: buildTaskPlanOptions", "src/cpp/Tasks/AngledAreaSearchTaskService.cpp: buildTaskPlanOptions"]}
{"id": "C95", "title": "The sensor footprint of an option is asked for the vehicle that would fly it", "statement": "Each published option of an area search comes with a footprint request for the same option id, and the vehicle of that request is eligible for the option.", "quantifier": "all vehicles, wedges and looks", "why_tests_cant": "numbers of groups, vehicles and looks are unbounded and multiply", "anchors": ["src/cpp/Tasks/CmasiAreaSearchTaskService.cpp: isCalculateOption", "src/cpp/Tasks/PatternSearchTaskService.cpp: isCalculateOption", "src/cpp/Tasks/AngledAreaSearchTaskService.cpp: isCalculateOption"]}
{"id": "C96", "title": "A line search offers each planned direction of each look, once, and all published options", "statement": "For line searches the options are published exactly for the vehicles, looks and directions with a plan, the reverse ones only if wanted; their ids differ, and the allowed orders of the composition are exactly the single published options.", "quantifier": "all vehicles, looks, planners and direction settings", "why_tests_cant": "whether a plan exists is free for each vehicle, look and direction", "anchors": ["src/cpp/Tasks/CmasiLineSearchTaskService.cpp: buildTaskPlanOptions", "src/cpp/Tasks/ImpactLineSearchTaskService.cpp: buildTaskPlanOptions"]}
{"id": "C97", "title": "A blockade or multi-vehicle watch is offered to as many vehicles as wanted", "statement": "The allowed orders of the published composition use exactly the number of vehicles the task wants, one option for each, and every choice of that many vehicles of the request is allowed.", "quantifier": "all vehicles and wanted numbers", "why_tests_cant": "choices of vehicles grow exponentially", "anchors": ["src/cpp/Tasks/BlockadeTaskService.cpp: buildTaskPlanOptions", "src/cpp/Tasks/MultiVehicleWatchTaskService.cpp: buildTaskPlanOptions"]}
{"id": "C98", "title": "The headings and elevations tried cover every view wedge at the step of the search and nothing else", "statement": "Every angle of a wedge has a tried heading within one step below it and every tried heading is in the wedge; likewise for elevations within the limits of the gimbal; no heading is tried twice; each wedge gives at least one look.", "quantifier": "all wedges, steps and tolerances with 0 < tolerance < step", "why_tests_cant": "wedges are arbitrary reals; the loops and the folding of angles interact at the ends", "anchors": ["src/cpp/Tasks/CmasiPointSearchTaskService.cpp: buildTaskPlanOptions", "src/cpp/Tasks/CmasiLineSearchTaskService.cpp: buildTaskPlanOptions", "src/cpp/Tasks/CmasiAreaSearchTaskService.cpp: buildTaskPlanOptions"]}
{"id": "C99", "title": "The cost of an option of a point search is its time in milliseconds", "statement": "The cost of each option of a point search from a standoff distance is the time in milliseconds a vehicle of its group takes over the distance, rounded down.", "quantifier": "all distances, speeds, wedges and groups", "why_tests_cant": "all pairs of distance and speed", "anchors": ["src/cpp/Tasks/CmasiPointSearchTaskService.cpp: isCalculateOption", "src/cpp/Tasks/ImpactPointSearchTaskService.cpp: isCalculateOption"]}
{"id": "C100", "title": "A cordon covers as many locations as possible with different vehicles", "statement": "When the egress locations arrive, the cordon publishes one option for each vehicle of the request and location, with different ids, and the allowed orders are exactly the assignments of as many different vehicles to different locations as possible.", "quantifier": "all groups, vehicles and locations, all earlier requests", "why_tests_cant": "assignments grow factorially and the numbering depends on the history", "anchors": ["src/cpp/Tasks/CordonTaskService.cpp: processReceivedLmcpMessageTask", "src/cpp/Tasks/CordonTaskService.cpp: calculateOption", "src/cpp/Tasks/CordonTaskService.cpp: calculateCompositionString"]}
{"id": "C101", "title": "A rendezvous is offered as every choice of vehicles for its meeting states", "statement": "A rendezvous publishes an option for each vehicle and each meeting state it may take, with different ids, and its allowed orders are exactly the choices of as many different vehicles as the task wants, one for each meeting state.", "quantifier": "all vehicles, meeting states and numbers of participants", "why_tests_cant": "choices and orders grow factorially; a hash table decides the order", "anchors": ["src/cpp/Tasks/RendezvousTask.cpp: buildTaskPlanOptions"]}
{"id": "C102", "title": "From the tasks' options to the published assignment", "statement": "For a request without process algebra between its tasks, the assignment service chooses for each task an allowed order of the options that the task published: every assignment in the published summary is an option that its task published, given to a vehicle that the option lists as eligible; the assignments can be put in an order in which the options of each task form one of the orders that its composition allows; tasks whose options are alternatives are assigned exactly once; and every combination of allowed orders can be chosen by the search.", "quantifier": "all tasks with distinct ids, vehicles, locations and parameters, all cost matrices with legs only to eligible options, all node limits and iteration orders", "why_tests_cant": "It is about the composition of every task with the text parser, the algebra and the branch-and-bound search; the fault in cordon and rendezvous only shows when an option is named in several alternatives and the best one is not the first.", "anchors": ["src/cpp/Tasks/CordonTaskService.cpp: calculateCompositionString", "src/cpp/Tasks/RendezvousTask.cpp: buildTaskPlanOptions", "src/cpp/Utilities/Algebra.cpp: searchNext", "src/cpp/Services/AssignmentTreeBranchBoundBase.cpp: calculateAssignment"]}
{"id": "C103", "title": "Each batch summary request is answered once, when its plans are in", "statement": "A BatchSummaryResponse with the id of a BatchSummaryRequest, holding one task summary per task of the request in order, is published exactly once: immediately if the request needs no planning, otherwise on the TaskAutomationResponse that is the last one outstanding among the requests published for it; responses in any order, repeated or with foreign ids, and other batch requests in between do not change this.", "quantifier": "all histories of messages of any length, all requests (any vehicles, tasks, with repetitions), all orders and repetitions of responses", "why_tests_cant": "interleavings of several batch requests with out-of-order, repeated and foreign responses are unbounded", "anchors": ["src/cpp/Services/BatchSummaryService.cpp: HandleBatchSummaryRequest", "src/cpp/Services/BatchSummaryService.cpp: HandleTaskAutomationResponse", "src/cpp/Services/BatchSummaryService.cpp: FinalizeBatchRequest"]}
{"id": "C104", "title": "A batch request is split into one planning request per vehicle and task or ordered pair of tasks", "statement": "For a batch request without task relationships, exactly one sandbox TaskAutomationRequest is published for each (task, vehicle) pair; with relationships, one for each vehicle and ordered pair of different tasks, whose relationship text reads as 'first this, then that'. Ids are never reused; the operating region of the batch request holds for the planning requests.", "quantifier": "all requests with any lists of vehicles and tasks and any ids, after any history", "why_tests_cant": "the lists of vehicles and tasks and the earlier requests are unbounded", "anchors": ["src/cpp/Services/BatchSummaryService.cpp: HandleBatchSummaryRequest"]}
{"id": "C105", "title": "A vehicle summary reports the part of the plan that leads to and performs its task", "statement": "In the answer there is, for each task of the request, one vehicle summary per vehicle (and per preceding task, with relationships). Its waypoints are those of the way to the task, the task, and the waypoint after it, in the plans made for that vehicle, preceding task and task; TimeToArrive and TimeOnTask are the flying times of the way and of the task; without a plan both are -1.", "quantifier": "all histories, requests and plans of any length, any number of tasks per mission", "why_tests_cant": "missions of any number of waypoints and tasks, in responses of any order", "anchors": ["src/cpp/Services/BatchSummaryService.cpp: UpdateTaskSummariesUtil", "src/cpp/Services/BatchSummaryService.cpp: UpdateSummaryUtil", "src/cpp/Services/BatchSummaryService.cpp: HandleTaskAutomationResponse"]}
{"id": "C106", "title": "A vehicle summary reports radio range, energy and zone conflicts as last known", "statement": "In the answer, BeyondCommRange is false only if some radio tower covers the vehicle's position and every waypoint and loiter of the summary, with the range of the tower (1 m if off) or of the vehicle's radios as last published; the remaining energy is the last published energy minus the use over the two times, at least 0 and never above what the vehicle has; ConflictsWithROZ is true exactly if a loiter touches a keep-out zone as last published.", "quantifier": "all histories of configurations, states, zones, requests and plans of any length", "why_tests_cant": "towers, vehicles, zones, waypoints and loiters are unbounded in number and messages come in any order", "anchors": ["src/cpp/Services/BatchSummaryService.cpp: UpdateVehicleSummary", "src/cpp/Services/BatchSummaryService.cpp: processReceivedLmcpMessage"]}
{"id": "C107", "title": "The visibility planner finds a shortest route over the corners of the zones", "statement": "If the straight way between start and end crosses no side of a zone, the route found is that straight line and its length is reported. Otherwise a route that is found leads from the start over corners of zones to the end, the length reported is the sum of its legs, and no other way over edges of the visibility graph that can be seen from start and end is shorter. A place that cannot be reached is reported as such.", "quantifier": "all lists of zones with any number of corners, all starts and ends with rational coordinates, all symmetric leg lengths", "why_tests_cant": "zones, corners and the ways between them are unbounded in number", "anchors": ["src/cpp/Plans/VisibilityGraph.cpp: CVisibilityGraph::errFindShortestPathLinear", "src/cpp/Plans/VisibilityGraph.cpp: CVisibilityGraph::errBuildVisibilityGraph", "src/cpp/Plans/VisibilityGraph.cpp: CVisibilityGraph::errInitializeGraphBase", "src/cpp/Plans/VisibilityGraph.cpp: CVisibilityGraph::isFindPath"]}
{"id": "C108", "title": "Routes of the visibility planner keep out of zones", "statement": "No point of the route found is strictly inside a convex zone, whenever neither end is; routes do not leave keep-in zones or enter keep-out zones.", "quantifier": "all lists of zones with any number of corners, all starts and ends, all points of the route", "why_tests_cant": "the points of a route and the arrangements of zones are infinite in number", "anchors": ["src/cpp/Plans/VisibilityGraph.cpp: CVisibilityGraph::errBuildVisibilityGraph", "src/cpp/Plans/VisibilityGraph.cpp: CVisibilityGraph::bFindIntersection", "src/cpp/Plans/Polygon.cpp: CPolygon::errFindSelfVisibleEdges", "src/cpp/Plans/Polygon.cpp: CPolygon::errFindVisibleEdges"]}
{"id": "C109", "title": "The segment intersection test is correct", "statement": "Two segments are reported as intersecting exactly if they share a point, and the point reported is one they share.", "quantifier": "all pairs of segments with rational end points", "why_tests_cant": "the segments are infinite in number", "anchors": ["src/cpp/Plans/Edge.cpp: CEdge::bFindIntersection", "src/cpp/Plans/Edge.cpp: CEdge::bIntersection"]}
{"id": "C110", "title": "Convex zones are recognised with their orientation", "statement": "A polygon with at least three corners in which every corner not on a side lies strictly on the inner side of that side is classified as convex, counterclockwise or clockwise according to its orientation.", "quantifier": "all strictly convex polygons with any number of corners, beginning at any corner", "why_tests_cant": "polygons have any number of corners", "anchors": ["src/cpp/Plans/Polygon.cpp: CPolygon::errCheckForConcavity"]}
{"id": "C111", "title": "The visibility route planner answers each request with a route per route asked for, at the cost of a shortest path", "statement": "A route plan request for a known aircraft or surface vehicle in a known operating region is answered once, to its sender, with one route plan for each route request, in order and with the same ids. The cost is the time in milliseconds of the shortest path found among the zones of the region at the vehicle's last configured speed. Requests for unknown vehicles or regions are not answered.", "quantifier": "all histories of configurations, zones, zone removals, regions and requests of any length", "why_tests_cant": "messages come in any number and order", "anchors": ["src/cpp/Services/RoutePlannerVisibilityService.cpp: bProcessRoutePlanRequest", "src/cpp/Services/RoutePlannerVisibilityService.cpp: bProcessOperatingRegion", "src/cpp/Services/RoutePlannerVisibilityService.cpp: processReceivedLmcpMessage"]}
{"id": "C112", "title": "The route planner answers each request for a known vehicle with one plan per route", "statement": "A route plan request for a vehicle that was ever reported as an air or surface vehicle is answered once, to its sender, with the ids of the request and one plan for each route, in order. A plan has the waypoints of the way within the vehicle's environment in the region (straight on if there is none), numbered in a chain ending in itself, at the speed and altitude of the last state (of the configuration if the vehicle stands or has no state), and costs the time in milliseconds; a route with no known place, at no speed or with an end outside the environment costs -1 and has no waypoints. Other requests are not answered.", "quantifier": "all histories of states, configurations, zones, water areas, regions and requests of any length", "why_tests_cant": "messages come in any number and order and routes and waypoints are unbounded", "anchors": ["src/cpp/Services/RoutePlannerService.cpp: processReceivedLmcpMessage", "src/cpp/Services/RoutePlannerService.cpp: HandleRoutePlanRequestMsg"]}
{"id": "C113", "title": "A vehicle plans in the environment of the zones last sent", "statement": "For each region sent, the environment of a vehicle in the air is the one built from the zones and the region as last sent, no matter whether the vehicle, the zones or the region came first; in a region that was not sent there is none; and taking up messages has no undefined behaviour.", "quantifier": "all histories of states, configurations, zones, water areas and regions of any length, all vehicles and regions", "why_tests_cant": "the orders in which vehicles, zones and regions can come are unbounded in number", "anchors": ["src/cpp/Services/RoutePlannerService.cpp: BuildVisibilityRegion", "src/cpp/Services/RoutePlannerService.cpp: UpdateRegions", "src/cpp/Services/RoutePlannerService.cpp: BuildVehicleSpecificRegion"]}
{"id": "C114", "title": "Planned routes keep to the zones of the region", "statement": "No point between the waypoints of a plan lies in a zone to be kept out of that the region names and that is for the vehicle; if the region names zones to be kept in, each such point lies in one of them.", "quantifier": "all histories of messages of any length, all requests, all points on the legs of the plans, all geometry libraries that meet the stated contract", "why_tests_cant": "the points of a route, the zones and the orders of messages are infinite in number", "anchors": ["src/cpp/Services/RoutePlannerService.cpp: BuildVehicleSpecificRegion", "src/cpp/Services/RoutePlannerService.cpp: UpdateRegions", "src/cpp/Services/RoutePlannerService.cpp: HandleRoutePlanRequestMsg"]}
{"id": "C115", "title": "The nearest point of a segment and of a boundary is found", "statement": "Projecting a point onto a segment gives the point of the segment nearest to it; a point is reported to be on the boundary of a polygon exactly if some point of one of its sides is not further away than epsilon; only the empty polygon has no answer.", "quantifier": "all points, segments (also degenerate ones), polygons of any number of corners, all epsilons", "why_tests_cant": "nearest is a statement about all points of a segment; polygons are unbounded in size", "anchors": ["src/cpp/VisilibityLib/visilibity.cpp: Point::projection_onto", "src/cpp/VisilibityLib/visilibity.cpp: Point::projection_onto_boundary_of", "src/cpp/VisilibityLib/visilibity.cpp: Point::on_boundary_of"]}
{"id": "C116", "title": "The point-in-polygon test of the geometry library is right", "statement": "For a convex polygon in either orientation a point is reported in it exactly if it is on the inner side of every side, or within epsilon of the boundary. For every polygon of any shape, two points joined by a way that keeps off the boundary get the same answer, a point from which such a way leads outside gets no, and crossing the boundary once, through a side, changes the answer.", "quantifier": "all polygons with any number of corners, all points, all epsilons, all polygonal ways", "why_tests_cant": "the shapes, points and ways are infinite; the special cases of a ray through corners are rare", "anchors": ["src/cpp/VisilibityLib/visilibity.cpp: Point::in(Polygon)"]}
{"id": "C117", "title": "The distance and intersection of segments are right", "statement": "The distance of two segments is that of two nearest points of them; they are said to meet exactly if points of them are within epsilon of each other, and with an epsilon of 0 exactly if they have a point in common; they are said to cross properly exactly if each has the other's ends strictly on its two sides, all ends being further than epsilon from the other segment.", "quantifier": "all pairs of segments, also degenerate, parallel or overlapping ones, all epsilons", "why_tests_cant": "the claim is about all points of both segments", "anchors": ["src/cpp/VisilibityLib/visilibity.cpp: distance(Line_Segment, Line_Segment)", "src/cpp/VisilibityLib/visilibity.cpp: intersect", "src/cpp/VisilibityLib/visilibity.cpp: intersect_proper"]}
{"id": "C118", "title": "Listing the corners differently changes no polygon", "statement": "Reversing a polygon or bringing it into standard form changes no answer about which points are in it; the standard form begins with the westernmost (then southernmost) corner, keeps the signed area and passes the test of the form; the area of a convex polygon is positive exactly if its corners are listed counterclockwise.", "quantifier": "all polygons with any number of corners, all points and epsilons", "why_tests_cant": "polygons and points are unbounded", "anchors": ["src/cpp/VisilibityLib/visilibity.cpp: Polygon::reverse", "src/cpp/VisilibityLib/visilibity.cpp: Polygon::enforce_standard_form", "src/cpp/VisilibityLib/visilibity.cpp: Polygon::is_in_standard_form", "src/cpp/VisilibityLib/visilibity.cpp: Polygon::area"]}
{"id": "C119", "title": "Eliminating redundant corners keeps the polygon", "statement": "Eliminating the redundant corners of a polygon leaves the same points in it.", "quantifier": "all polygons with any number of corners, all epsilons, all points", "why_tests_cant": "polygons and points are unbounded", "anchors": ["src/cpp/VisilibityLib/visilibity.cpp: Polygon::eliminate_redundant_vertices"]}
{"id": "C120", "title": "The test whether a point is in an environment is right", "statement": "A point is found in an environment (an outer boundary with holes) exactly if it is within epsilon of one of the boundaries, or in the outer boundary and in no hole; there is an answer exactly if no polygon of the environment is empty.", "quantifier": "all environments with any number of holes and corners, all points, all epsilons", "why_tests_cant": "environments and points are unbounded", "anchors": ["src/cpp/VisilibityLib/visilibity.cpp: Point::in(Environment)", "src/cpp/VisilibityLib/visilibity.cpp: Point::projection_onto_boundary_of(Environment)"]}
{"id": "C121", "title": "A valid environment has its holes inside and apart", "statement": "An environment is found valid exactly if each polygon is simple (sides meet only at shared corners), all boundaries are further than epsilon apart, every point of a hole's boundary is in the outer boundary and in no other hole, and the orientations are right. A point found in a valid environment is in the outer boundary, and in no hole other than within epsilon of its boundary.", "quantifier": "all environments with any number of holes and corners, all points, all epsilons", "why_tests_cant": "validity is checked at corners only; that it holds for all points of the boundaries is a theorem", "anchors": ["src/cpp/VisilibityLib/visilibity.cpp: Environment::is_valid", "src/cpp/VisilibityLib/visilibity.cpp: Polygon::is_simple", "src/cpp/VisilibityLib/visilibity.cpp: boundary_distance"]}
{"id": "C122", "title": "The shortest path in an environment is shortest, and none is missed", "statement": "Given which corners of an environment see each other and are seen from the start and the finish, the search for a shortest path always ends. It gives the empty path exactly if the finish is further than epsilon from the start and can be reached neither directly nor from corner to corner. Any other path begins within epsilon of the start, ends at the finish (or at the start, if that is within epsilon of it), has legs that each lead from a vertex to a place within epsilon of one seen from it, and is no longer than any way from corner to corner.", "quantifier": "all sets of corners of any size, all visibility relations, all starts and finishes, all distances that satisfy the laws of a metric, all epsilons that are not negative", "why_tests_cant": "optimality compares with all of exponentially many ways, and the bookkeeping of the queue and the tree (an entry improved after it was queued) matters only in particular orders of expansion", "anchors": ["src/cpp/VisilibityLib/visilibity.cpp: Environment::shortest_path", "src/cpp/VisilibityLib/visilibity.h: Environment::Shortest_Path_Node"]}
{"id": "C123", "title": "Every request for sensor footprints is answered, combination by combination", "statement": "Each SensorFootprintRequests is answered by exactly one SensorFootprintResponse with its response id; nothing else is sent. The response has, in order, one footprint for each combination of wavelength band, ground sample distance, above-ground altitude and elevation angle of each listed request whose vehicle has been configured, where an empty list counts as one entry for 'not given'; the footprint is computed with the configuration of that vehicle.", "quantifier": "all histories of configurations and requests, all lists of any length in the requests", "why_tests_cant": "the number of combinations is a product of list lengths, and the configuration in use depends on the whole history", "anchors": ["src/cpp/Services/SensorManagerService.cpp: SensorManagerService::processReceivedLmcpMessage", "src/cpp/Services/SensorManagerService.cpp: SensorManagerService::ProcessSensorFootprintRequests"]}
{"id": "C124", "title": "A footprint uses a camera setting the vehicle has, with the closest ground sample distance", "statement": "For each combination asked for, the footprint is for a camera of the wanted band on a gimbal of the vehicle, with a field of view the camera has and an elevation within the gimbal's limits and below the horizon; no other such setting has a ground sample distance closer to the one wanted. If there is such a setting, a footprint is found. If no elevation angle is given all elevations are tried.", "quantifier": "all configurations with any number of gimbals, cameras and fields of view, all altitudes, distances and elevations", "why_tests_cant": "the best of all settings is claimed; a test compares with the settings its author thought of", "anchors": ["src/cpp/Services/SensorManagerService.cpp: SensorManagerService::FindSensorFootPrint", "src/cpp/Services/SensorManagerService.cpp: SensorManagerService::ProcessSensorFootprintRequests"]}
{"id": "C125", "title": "The edges of a sensor footprint are in order around its centre", "statement": "For a vehicle above ground whose camera looks below the horizon, the trailing edge of the footprint is nearer than its centre and the leading edge is farther; altitude, distance of the centre and slant range form a right triangle; and the width is the chord of the field of view at the slant range.", "quantifier": "all altitudes, elevations, fields of view and aspect ratios, as real numbers", "why_tests_cant": "the domain is continuous, with a singularity at the horizon", "anchors": ["src/cpp/Services/SensorManagerService.cpp: SensorManagerService::CalculateSensorFootprint"]}
{"id": "C126", "title": "Status reports say what was last heard, for as long as it holds", "statement": "The status service sends a report each configured period. A report names the vehicle, the time and tasks of the last state received of it, and exactly the entities that joined and did not exit since. It says that the state is valid exactly if a state of the vehicle was received within the configured time, and gives the authorisations of the last keep-alive message if that was received within the configured time, and none otherwise. The configured times are at least 100 ms, 10 ms and a second.", "quantifier": "all configurations, all histories of messages and timer events, with the handlers of timers interleaved with the handling of messages in any way", "why_tests_cant": "whether a report is right depends on how timer handlers and messages interleave; the failures need a message to arrive in the short time a handler is being called", "anchors": ["src/cpp/Services/StatusReportService.cpp: StatusReportService::processReceivedLmcpMessage", "src/cpp/Services/StatusReportService.cpp: StatusReportService::OnReportTimeout", "src/cpp/Utilities/UxAS_TimerManager.cpp: executeManagement"]}
{"id": "C127", "title": "North and east are those of the ellipsoid at the first position, and convert back", "statement": "A converter takes the first position it is given as its origin and keeps it. North and east of a position are its latitude and longitude beyond the origin's times the radius of curvature of the meridian and the radius of the parallel at the origin. Converting back gives the position: exactly in radians and metres, and up to parts in 10^12 in degrees and feet. Distances are a metric. Converting from north and east before any position was given is detected by an assertion, and answers 0, 0 without assertions.", "quantifier": "all sequences of calls on a converter, all positions and units, all origins not at a pole", "why_tests_cant": "the result depends on the first call ever made, which for the process-wide converter may be that of any other service; exactness over all real positions is not testable", "anchors": ["src/cpp/Utilities/FlatEarth.cpp: FlatEarth::Initialize", "src/cpp/Utilities/FlatEarth.cpp: ConvertLatLong_degToNorthEast_m", "src/cpp/Utilities/FlatEarth.cpp: ConvertNorthEast_mToLatLong_deg", "src/cpp/Utilities/UnitConversions.cpp: CUnitConversions"]}
{"id": "C128", "title": "A normalised angle is the same direction in the range asked for", "statement": "Normalising an angle adds a whole number of full turns and gives an angle not below the reference and less than a full turn above it; it depends on the direction only, and normalising again changes nothing.", "quantifier": "all angles, all references from minus a full turn to 0, degrees and radians", "why_tests_cant": "the failures are confined to a band of 10^-9 at the ends of the range", "anchors": ["src/cpp/Includes/Constants/Convert.h: dNormalizeAngleRad", "src/cpp/Includes/Constants/Convert.h: dNormalizeAngleDeg", "src/cpp/Includes/Constants/Convert.h: bCompareDouble"]}
{"id": "C129", "title": "Rounding gives the nearest integer or decimal", "statement": "Rounding to an integer gives a nearest integer. Rounding to a decimal place gives a nearest multiple of the place, keeps the order, and rounding again changes nothing.", "quantifier": "all numbers, all places above 0", "why_tests_cant": "tests use a few numbers, usually positive", "anchors": ["src/cpp/Includes/Constants/Convert.h: iRound", "src/cpp/Includes/Constants/Convert.h: dRound", "src/cpp/Plans/Trajectory.h: vRound"]}
{"id": "C130", "title": "A segment is extended by the length asked for, on a path that can be flown", "statement": "Extending a segment by a length gives a path that starts on the segment in its direction, consists of arcs of the given turn radius and straight pieces that join without a jump or a kink, ends on the segment in its direction no further than the length required from its start, and is longer than the part of the segment it replaces by the length asked for, up to 6e-8 radii and never more. On a segment of at least the length required the path stays within twice the radius of it. A segment of six radii is always long enough.", "quantifier": "all segments, turn radii above 0 and lengths from 0 up to 2^31 circles", "why_tests_cant": "the angle comes from a numeric search, and the shape changes with the ratio of length and radius; tests sample a few", "anchors": ["src/cpp/Utilities/RouteExtension.cpp: RouteExtension::ExtendSegment", "src/cpp/Utilities/RouteExtension.cpp: RouteExtension::RequiredSegmentLength", "src/cpp/Utilities/RouteExtension.h: RouteExtension"]}
{"id": "C131", "title": "A route is extended by the time asked for, in its longest suitable segment", "statement": "Extending a route by a time either refuses and leaves the route unchanged, exactly if no segment is long enough for the extension at the speed flown on it, or puts waypoints into the longest segment that is. These lie on a path that can be flown with the turn radius, divide its arcs evenly in parts of less than twice the discretisation distance, and stay, with the lines between them, within twice the radius of the segment; the path is longer than the segment by the time at the speed of the segment. The waypoints before are unchanged, the waypoints after keep everything but their numbers, and the numbers are consecutive from the first new waypoint on, each pointing to the next and the last to itself. What is done at a waypoint is still done once.", "quantifier": "all routes not starting at a pole, all times that are not negative, all turn radii and discretisation distances above 0", "why_tests_cant": "the choice among segments depends on all lengths and speeds; positions have to be checked along a continuous path", "anchors": ["src/cpp/Utilities/RouteExtension.cpp: RouteExtension::ExtendPath", "src/cpp/Utilities/RouteExtension.cpp: RouteExtension::DiscretizeExtension", "src/cpp/Tasks/RendezvousTask.cpp: RouteExtension::ExtendPath"]}
{"id": "C132", "title": "The vehicle follows the waypoints of its mission in the order of their links", "statement": "Every state of the vehicle is answered with exactly one report, the state with the number of the current waypoint and its tasks. From a mission to the next the reported numbers follow the links of the mission from its first waypoint; a waypoint is passed only when it is reached (within a metre, past the line at right angles to its leg, or from the configured distance if it allows that; a loiter when its duration is over), and never because the process hangs in a closed route. A closed route is flown on and on: the reported waypoint always lies ahead of the vehicle.", "quantifier": "all missions, all histories of messages with any times and positions", "why_tests_cant": "routes and positions are unbounded; a state may pass any number of waypoints at once, and closed routes make the loop a matter of termination", "anchors": ["src/cpp/Services/SteeringService.cpp: SteeringService::processReceivedLmcpMessage", "src/cpp/Services/SteeringService.cpp: SteeringService::CheckProximity", "src/cpp/Services/SteeringService.cpp: SteeringService::reset"]}
{"id": "C133", "title": "Commanded headings lead to the leg or the orbit and along it", "statement": "While a vehicle is on a mission and no task has taken over its heading, each of its states is answered with one command for the reported waypoint, with its altitude and with its speed or the overriding one. On a leg the heading makes progress along the leg and points towards it from either side; held for up to 1/k (100 m by default) it brings the vehicle nearer without crossing the leg. On an orbit it leads round the centre in the direction asked for, outwards inside, inwards outside. Headings are within -180 to 180 degrees. Equal situations on the same leg get equal headings.", "quantifier": "all histories of messages, all positions, legs, orbits and settings", "why_tests_cant": "the law is a continuous function of position and settings; signs and quadrants have to be right everywhere", "anchors": ["src/cpp/Services/SteeringService.cpp: SteeringService::processReceivedLmcpMessage", "src/cpp/Services/SteeringService.cpp: SteeringService::configure"]}
{"id": "C134", "title": "Safe-heading commands carry the operating region of the mission that is flown", "statement": "A safe-heading command carries the configured operating region if one is configured, and otherwise the region of the automation request whose answer gave the mission being flown.", "quantifier": "all histories of requests, answers, missions and states", "why_tests_cant": "depends on the interleaving of several requests and their answers, of which only some are flown", "anchors": ["src/cpp/Services/SteeringService.cpp: SteeringService::processReceivedLmcpMessage"]}
{"id": "C135", "title": "Vehicles that are to meet are planned to arrive at the same time", "statement": "When the routes of a rendezvous task are asked for, the route of each assigned vehicle is extended so that, at the speed planned with, it arrives when the last of the assigned vehicles arrives from its previous task; the last one keeps its route. The vehicle is taken to be free from the time its earlier requests and answers gave. All waypoints have the planned speed and the altitude asked for and lead on to each other.", "quantifier": "all histories of messages, all assignments, costs, vehicles and routes", "why_tests_cant": "depends on the interleaving of the requests of several vehicles and on continuous positions, speeds and turn radii", "anchors": ["src/cpp/Tasks/RendezvousTask.cpp: RendezvousTask::processReceivedLmcpMessageTask", "src/cpp/Tasks/RendezvousTask.cpp: RendezvousTask::updateStartTimes", "src/cpp/Tasks/RendezvousTask.cpp: RendezvousTask::isProcessTaskImplementationRouteResponse"]}
{"id": "C136", "title": "On their way to meet, vehicles are commanded speeds that bring them there at one time", "statement": "While a vehicle flies for the rendezvous task, each of its states leads to a speed command that is within its limits; it is the speed for a time at which all participants can be there, if there is one, and no other such time is nearer (in the mean square) to their times at nominal speed; vehicles that know of each other choose the same time; the command is followed.", "quantifier": "all numbers of participants, distances, limits and orders of reports", "why_tests_cant": "any number of vehicles with any real distances and limits, in any order", "anchors": ["src/cpp/Tasks/RendezvousTask.cpp: RendezvousTask::activeEntityState", "src/cpp/Tasks/RendezvousTask.cpp: RendezvousTask::SpeedClip", "src/cpp/Services/SteeringService.cpp: SteeringService::processReceivedLmcpMessage"]}
{"id": "C137", "title": "The distance that remains to a meeting is the length of the way over the task's waypoints ahead", "statement": "The remaining distance of a vehicle is the length of the way from its position over the waypoints of its mission from the current one along the links, as long as they belong to the task, each counted once; without a mission it is 0. It is computed in finite time for every mission, even if its links run in a circle or lead nowhere.", "quantifier": "all missions, positions and current waypoints", "why_tests_cant": "the links of a mission can form any shape; termination and exactness have to hold for all", "anchors": ["src/cpp/Tasks/RendezvousTask.cpp: RendezvousTask::ArrivalDistance", "src/cpp/Tasks/RendezvousTask.cpp: RendezvousTask::FindWaypointIndex"]}
{"id": "C138", "title": "An area search is laid out in parallel lanes over the area", "statement": "For a positive lane spacing the computation of the legs of an area search ends, for every area with a boundary. A circle is searched as a polygon of 36 equal sides, a rectangle by its corners. The legs are straight, parallel to the direction of the option (of the rectangle, for angled searches), go to and fro, lie on lanes the lane spacing apart between the outermost points of the boundary, and each is at least as long as the sensor footprint. When no lane passes through a corner of the boundary, the computation reports success. The four variants of an angled search start at the four corners.", "quantifier": "all areas (circles, polygons with any number of corners, rectangles with any rotation), directions, lane spacings and sensor reaches, and both services", "why_tests_cant": "the number of lanes and corners is unbounded, and a test can only try some polygons, directions and spacings", "anchors": ["src/cpp/Tasks/CmasiAreaSearchTaskService.cpp: isCalculateRasterScanRoute", "src/cpp/Tasks/AngledAreaSearchTaskService.cpp: isCalculateRasterScanRoute", "src/cpp/Plans/Edge.cpp: bFindIntersection", "src/cpp/Plans/Polygon.h: findIntersections", "src/cpp/Plans/Position.h: TransformPoint2D"]}
{"id": "C139", "title": "The route request of an area search joins the legs and numbers the routes", "statement": "When the footprint of the sensor arrives for an option of an area search, one route plan request is sent if the lanes are more than a centimetre apart: its routes are numbered from 2 on, alternate legs and turns, join in position and heading, have the altitude of the option, and the headings of a leg are its true course. The option is given the start of the first and the end of the last route. Lanes are nine tenths of the footprint width apart, within the configured limits. Otherwise no request is sent. (False of areas of an unknown kind: a request without routes is sent.)", "quantifier": "all areas, directions, altitudes, footprints, configured limits and option numbers, both services", "why_tests_cant": "the number of routes depends on the area and footprint and is unbounded", "anchors": ["src/cpp/Tasks/CmasiAreaSearchTaskService.cpp: processReceivedLmcpMessageTask, isCalculateRasterScanRoute", "src/cpp/Tasks/AngledAreaSearchTaskService.cpp: processReceivedLmcpMessageTask, isCalculateRasterScanRoute"]}
{"id": "C140", "title": "An area search sees the whole area", "statement": "Every point of the area is seen by the sensor from some leg of the search. (False: a strip along the far side can stay unseen, the first service flies one lane where two are needed and leaves the rotation of rectangles aside, a lane through the first corner is flown without length, and the tips of pointed areas stay unseen. Proved: everything is within one lane spacing of a lane, within half when the width fits the spacing; what is right beneath a lane is seen; rectangles whose width fits are seen whole, by the requested routes.)", "quantifier": "all areas, directions, footprints, points of the area", "why_tests_cant": "the claim is about every point of every area", "anchors": ["src/cpp/Tasks/CmasiAreaSearchTaskService.cpp: isCalculateRasterScanRoute", "src/cpp/Tasks/AngledAreaSearchTaskService.cpp: isCalculateRasterScanRoute"]}
{"id": "C141", "title": "A sector search crosses the disc and sees all of it", "statement": "A sector search of a disc is answered with a request for straight legs through the centre, each turned from the one before by the lane spacing at the rim and flown the other way, with true headings, from before the disc to where the sensor has passed over it, joined by the ways between them; together the legs see the whole disc. (False: where the lanes do not fit half a turn a wedge stays unseen; a footprint wider than the disc gets no request; a negative extent never ends. Proved: the legs, the request, when it is sent, and that a sensor reaching three quarters of a lane spacing sees all, the footprint when the lanes fit.)", "quantifier": "all centres, extents, footprints, points of the disc", "why_tests_cant": "the claim is about every point of every disc and every footprint", "anchors": ["src/cpp/Tasks/PatternSearchTaskService.cpp: isCalculatePatternScanRoute_Sector"]}
{"id": "C142", "title": "A spiral search looks at the whole disc at the stated cost", "statement": "A spiral search of a disc ends, with points to look at on a spiral whose turns are nine tenths of a lane spacing apart, from 50 m off the centre to more than half a lane spacing beyond the rim, and waypoints on the same bearings outside of the configured radius; every point of the disc is near a point to look at; the option starts and ends with the waypoints and costs the time of the flight. (False: the time from the origin of the coordinates to the first waypoint is added to the cost; wide footprints leave a hole near the centre; a negative extent reads from an empty list. Proved: the spiral, start, end, headings and cost as it is, and nearness to within 0.45 lane spacings and 66 m outside of 1.1 lane spacings from the centre.)", "quantifier": "all centres, extents, lane spacings, centre radii, speeds, points of the disc", "why_tests_cant": "the claim is about every point of every disc and every spacing", "anchors": ["src/cpp/Tasks/PatternSearchTaskService.cpp: isCalculatePatternScanRoute_Spiral"]}
{"id": "C143", "title": "The closest point of a segment is its closest point", "statement": "For a segment and a point of the plane, the closest point that is computed lies on the segment, and its distance from the point is the least over all points of the segment, both to within 0.01 mm.", "quantifier": "all segments, including those of length zero, and all points of the plane, in exact arithmetic", "why_tests_cant": "The answer passes through thresholds on which side of two perpendiculars a point is; tests use segments and points for which these are far away, and compare with a few points of the segment.", "anchors": ["src/cpp/DPSS/DpssDataTypes.cpp: Segment::closestPoint, Segment::distToClosestPoint, Segment::intersectPoint, Segment::swathSide, Segment::side"]}
{"id": "C144", "title": "An escort is put at the standoff distance along the path", "statement": "The place for an escort is found from the point of the path nearest to the supported vehicle, among the segments that go less than a right angle off its heading (all of them when it is at rest), by going the standoff distance along the path, forwards when positive and backwards when negative, and no further than the end of the path. With a standoff distance near zero or without a path it is the place of the vehicle itself. The computation never fails.", "quantifier": "all paths, standoff distances, positions, headings and speeds of the supported vehicle", "why_tests_cant": "The distance may span any number of segments of a path, begin anywhere in one and end anywhere in another, or run over the end; tests walk along a few paths.", "anchors": ["src/cpp/Tasks/EscortTaskService.cpp: CalculateTargetPoint"]}
{"id": "C145", "title": "An escort follows the path its vehicle follows, in its direction", "statement": "The path is the line of interest named in the task; without a name, the last mission heard of the supported vehicle; without one, the waypoints given in the task; without these, the nearest line of interest, taken in the direction in which the vehicle goes, or when it is at rest starting from the nearer end.", "quantifier": "all sets of lines of interest and missions heard, all tasks, all positions, headings and speeds", "why_tests_cant": "The choice compares distances over all lines and all their segments, in both directions; which is least depends on the whole geometry, and the cases that go wrong (a vehicle exactly on a line, or against all of its segments, or at rest) are not those of a scenario.", "anchors": ["src/cpp/Tasks/EscortTaskService.cpp: CalculateTargetPoint, DistanceToLine, FlipLine"]}
{"id": "C146", "title": "Vehicles of a blockade meet the enemy on its way, abreast and apart", "statement": "A vehicle on a blockade task is sent, with its camera on the blocked entity, to the place on the line from that entity to the protected place which it and the point at the standoff distance in front of the entity reach at the same time at equal speeds, to the protected place when that is too late, offset to the side by its rank among the vehicles on the task, so that the wall is centred on the line and any two vehicles are at least the standoff distance apart; it holds there, in a circle it can fly.", "quantifier": "all positions of vehicle, blocked entity and protected place, all standoff distances and sets of vehicles on the task", "why_tests_cant": "The place is found by trigonometry with three special cases chosen by tolerances; whether it is equidistant in all of them is a matter of all triangles, not of the few that a scenario produces.", "anchors": ["src/cpp/Tasks/BlockadeTaskService.cpp: activeEntityState, CalculateCenterBlockingPosition, CalculateGimbalActions"]}
{"id": "C147", "title": "Routes to a moving target are asked for at a limited rate", "statement": "A task that follows a moving target asks for a route for a vehicle only when at least the configured time (3 s) has passed since the vehicle's state was first heard, and two requests for the same vehicle are at least that time apart, whatever messages arrive in between and however many vehicles are on the task.", "quantifier": "all histories of vehicle states (of any vehicles, at any times, with any computed targets), route responses, keep-out zones, operating regions and automation responses", "why_tests_cant": "the clock of a vehicle is set in several branches and interleaves with those of other vehicles; tests try few interleavings", "anchors": ["src/cpp/Tasks/DynamicTaskServiceBase.cpp: activeEntityState", "src/cpp/Tasks/DynamicTaskServiceBase.h: m_throttle_ms"]}
{"id": "C148", "title": "Requests to a moving target are for the right place, and are sent when needed", "statement": "A route request of a task that follows a moving target is for the vehicle whose state was heard, is answered to this service, ends at the place computed for the vehicle (moved off keep-out zones for air vehicles), which is at least 400 m from the vehicle and from the place it was last sent to, and starts 50 m ahead of the vehicle towards it. Ground vehicles are only redirected at the end of their mission. A request is sent whenever these conditions hold, and a vehicle that is far from its target is sent there; the service never fails.", "quantifier": "all service states, vehicle states, times and computed targets; all later histories for the case of a vehicle that is left alone", "why_tests_cant": "a vehicle that is left alone forever is a property of all continuations; the failing pointer needs a target that is lost after it was found", "anchors": ["src/cpp/Tasks/DynamicTaskServiceBase.cpp: activeEntityState"]}
{"id": "C149", "title": "A route to a moving target becomes a mission that ends on target", "statement": "A route response to a request of the task becomes a mission command for the same vehicle with the same places in the same order, each marked with the task and with the speed and altitude of the last plan, the last waypoint following itself; the gimbals of the vehicle stare at the target from the first waypoint, and at the last one the vehicle loiters at the target on a circle that it can fly with 25 degrees of bank (ground and surface vehicles stop there). Other responses have no effect.", "quantifier": "all service states, responses with any number of waypoints and configurations with any payloads", "why_tests_cant": "first and last waypoint coincide for routes of one waypoint, and optional data (overrides, configuration, target) may be absent in any combination", "anchors": ["src/cpp/Tasks/DynamicTaskServiceBase.cpp: processReceivedLmcpMessageTask, calculateGimbalStareAction, calculateLoiterAction, loiterRadiusFromConfig"]}
{"id": "C150", "title": "Targets are moved off keep-out zones", "statement": "A target for an air vehicle that lies in a keep-out zone, or so near that the loiter around it would touch the zone, is moved so that it is at least one and a half loiter radii away from the zone, and from every other keep-out zone; a target that is not moved has no zone within its loiter.", "quantifier": "all convex closed zones, any number of them, all places and distances", "why_tests_cant": "zones and places range over a continuum; the result depends on which zones are near each other", "anchors": ["src/cpp/Tasks/DynamicTaskServiceBase.cpp: AttemptMoveOutsideKoz"]}
{"id": "C151", "title": "Tasks with a moving target offer one option per usable vehicle", "statement": "The plan options of a task that follows a moving target are one for each eligible vehicle with a known state and configuration, numbered 1, 2, ..., each starting and ending where the vehicle would be sent now. They are sent whatever is known of the target.", "quantifier": "all lists of eligible vehicles, all states of knowledge about them and all computed targets", "why_tests_cant": "the numbering must skip vehicles without data, in any pattern", "anchors": ["src/cpp/Tasks/DynamicTaskServiceBase.cpp: buildTaskPlanOptions"]}
{"id": "C152", "title": "An overwatch expects its target where uniform motion takes it", "statement": "An overwatch estimates the motion of the watched entity from its last four states and, if the last one is not older than 15 s, sends vehicles to where the entity will be if it keeps moving like that; up to 0.1 s it uses the last place. For an entity in uniform motion this is where the entity will be.", "quantifier": "all histories of states of any entities, all velocities, sampling times and later times", "why_tests_cant": "an error in one component of the estimated velocity is invisible for targets that move along the other axis", "anchors": ["src/cpp/Tasks/OverwatchTaskService.cpp: processRecievedLmcpMessageDynamicTask, calculateTargetLocation"]}
{"id": "C153", "title": "A relay goes halfway", "statement": "A communication relay is sent to the place halfway between the tower and the last known place of the supported entity, from which the farther of the two is as near as possible, at its nominal altitude. Without a tower or a supported entity it stays where it is.", "quantifier": "all places, all histories of entity states", "why_tests_cant": "optimality is a claim about all other places", "anchors": ["src/cpp/Tasks/CommRelayTaskService.cpp: calculateTargetLocation, moveToHalfWayPoint, processRecievedLmcpMessageDynamicTask"]}
{"id": "C154", "title": "A road map keeps every piece of road between two crossings", "statement": "From the file of a street map the planner takes the points where roads begin, end or meet as the points used for planning, and keeps for every two of them that follow each other on a road the piece of road between them, in both directions, with its true length. When every point of a road is in the file the map is made.", "quantifier": "all lists of roads, all lists of points, all orders in which the points of a road are handed back", "why_tests_cant": "whether a point is used for planning depends on all other roads, and pieces overwrite each other", "anchors": ["src/cpp/Services/OsmPlannerService.cpp: isBuildRoadGraphWithOsm, isProcessHighwayNodes, isBuildGraph"]}
{"id": "C155", "title": "The road graph has the lengths of the roads", "statement": "The graph in which routes are searched has one edge for each piece of road between two neighbouring planning points, and its length is the length of the piece in whole metres.", "quantifier": "all roads and points, all pieces", "why_tests_cant": "the error of a length depends on all the points of the road before it", "anchors": ["src/cpp/Services/OsmPlannerService.cpp: isBuildGraph"]}
{"id": "C156", "title": "The planning point nearest to a place is found", "statement": "For a place the planner finds the nearest point of the map, with its distance, if there is one within a kilometre; if it finds none, all points are more than a kilometre away in north or in east.", "quantifier": "all finite sets of points, all places", "why_tests_cant": "the grid cells treat places differently depending on where they lie and on the side of the origin", "anchors": ["src/cpp/Services/OsmPlannerService.cpp: isFindClosestNodeId, isExamineCellsInSquare, isExamineCell"]}
{"id": "C157", "title": "Routes along roads are shortest", "statement": "A route found between two planning points goes along pieces of roads from one to the other and there is no shorter one; its length is given correctly. If no route is found there is none. The search never reads outside of the graph.", "quantifier": "all maps, all pairs of points, all orders in which a queue hands out equally good vertices", "why_tests_cant": "optimality is a claim about all routes; the search uses an estimate that must never be too large", "anchors": ["src/cpp/Services/OsmPlannerService.cpp: isFindShortestRoute"]}
{"id": "C158", "title": "Road plans are answered with routes along roads and their cost", "statement": "Every route plan request for a vehicle with a known configuration is answered with a plan for each route in its order. A plan drives from the start to the nearest planning point, from there from point to neighbouring point of roads to the planning point nearest to the end, and then to the end; its waypoints are numbered from 1 and linked. Its cost is the time the drive along the waypoints takes at nominal speed. Plans that fail have cost -1 and no waypoints.", "quantifier": "all maps, requests, vehicles and speeds", "why_tests_cant": "cost and waypoints come from different data that agree in most maps", "anchors": ["src/cpp/Services/OsmPlannerService.cpp: processReceivedLmcpMessage, bProcessRoutePlanRequest, isGetRoadPoints"]}
{"id": "C159", "title": "All places where roads leave a circle are given", "statement": "The answer to an egress request lists the points of roads just outside of the circle whose neighbour on the road is inside, all of them, each once.", "quantifier": "all maps, centres and radii", "why_tests_cant": "only pieces near the circle are looked at, which depends on how points and cells lie", "anchors": ["src/cpp/Services/OsmPlannerService.cpp: bProcessEgressRequest, findRoadIntersectionsOfCircle"]}
{"id": "C160", "title": "Road point requests are answered with a line along the roads", "statement": "Each request for the road points between two places is answered, in the order of the requests, with a line that follows roads from point to neighbouring point, from the point nearest to the first place to the point nearest to the second.", "quantifier": "all maps, all lists of requests", "why_tests_cant": "six cases depending on which of the two points are crossings and whether they share a piece of road, and on the direction in which pieces are stored", "anchors": ["src/cpp/Services/OsmPlannerService.cpp: isProcessRoadPointsRequest, isGetNodesOnSegment, isGetRoadPoints"]}
{"id": "C161", "title": "A steered sensor looks as far along its road as the vehicle is along its waypoints", "statement": "Given the waypoints a vehicle flies (with increasing numbers) and a road for the sensor, while the vehicle is on the way to a waypoint the sensor is pointed at the point of the road that is the same fraction of the road's length along it as the vehicle (taken at the closest point of the segment it is flying) is of the waypoints' length along them, to within two thousandths of the road's length; before the first waypoint it looks at the start of the road. It never is pointed anywhere else.", "quantifier": "all waypoint lists with increasing numbers, all roads, all vehicle positions and current waypoint numbers", "why_tests_cant": "Positions, waypoint lists and roads are unbounded and continuous, and the failures need coinciding waypoints or a road without length.", "anchors": ["src/cpp/Utilities/SensorSteering.cpp:SensorSteering::Initialize", "src/cpp/Utilities/SensorSteering.cpp:SensorSteering::FindSensorStarePoint"]}
{"id": "C162", "title": "The segment that steers a sensor is the one being flown", "statement": "When a way is steered in segments, a waypoint number after the first of a segment, up to and including the first of the next, is looked up in that segment. A spiral search makes two segments: the turns up to the first that is not inside the centre circle, and from that turn on; every turn is steered by the segment that contains the way to it.", "quantifier": "all lists of segments, all numbers and positions; all spirals and centre radii", "why_tests_cant": "The number of segments and turns is unbounded; overlapping ends and equal starts are the corner cases.", "anchors": ["src/cpp/Utilities/SensorSteering.cpp:SensorSteeringSegments::AddSegment", "src/cpp/Utilities/SensorSteering.cpp:SensorSteeringSegments::FindSensorStarePoint", "src/cpp/Tasks/PatternSearchTaskService.cpp:isCalculatePatternScanRoute_Spiral"]}
{"id": "C163", "title": "Searching vehicles are told to point a gimbal of theirs at what they search", "statement": "Whenever a vehicle reports that it is doing a search task it is sent one gimbal command, for a gimbal of its present configuration and in the name of the task: a point search looks at its point; a spiral search at the point of the spiral as far along as the vehicle is on its way. The camera asked for is put on the stream once for each vehicle. A way that is planned again is steered by the new way.", "quantifier": "all sequences of configurations, plans, implementations and states; all payload lists; all spirals and positions", "why_tests_cant": "Messages come in any order and number; the failures need a second configuration, a second plan or a state before the configuration.", "anchors": ["src/cpp/Tasks/PatternSearchTaskService.cpp:activeEntityState", "src/cpp/Tasks/CmasiPointSearchTaskService.cpp:activeEntityState", "src/cpp/Tasks/CmasiAreaSearchTaskService.cpp:activeEntityState", "src/cpp/Tasks/TaskServiceBase.cpp:processReceivedLmcpMessage"]}
{"id": "C164", "title": "Vehicles that watch an entity circle it and look at it", "statement": "After any messages, a vehicle that reports doing a watch task is sent one command as soon as a state of the watched entity is known: to circle (ground and surface vehicles: hover at) the last known place of that entity at its own altitude and to point every gimbal there. One option per requested vehicle is offered, at the place of the watched entity, and as many vehicles are composed as the task asks for.", "quantifier": "all sequences of states, configurations and requests; all payload lists and vehicle kinds", "why_tests_cant": "Unbounded sequences of messages in any order.", "anchors": ["src/cpp/Tasks/MultiVehicleWatchTaskService.cpp:processReceivedLmcpMessageTask", "src/cpp/Tasks/MultiVehicleWatchTaskService.cpp:buildTaskPlanOptions", "src/cpp/Tasks/MultiVehicleWatchTaskService.cpp:activeEntityState", "src/cpp/Tasks/MultiVehicleWatchTaskService.cpp:CalculateGimbalActions"]}
{"id": "C165", "title": "A searched road is simplified without leaving it and thinned to a number of waypoints", "statement": "Before a line search is planned, points of the road that lie on the line are left out: the first and the last point and the order are kept, and no point of the road is more than a metre from what is left. Then points are left out one at a time, always one without which the points of the road are separated least from the new line, never the first, the last or one marked to be kept, until no more than the asked number is left; when none has to be kept exactly the asked number (or all of them, if there are fewer) is left.", "quantifier": "all roads of any number of points, all positions and marks, all numbers asked for", "why_tests_cant": "Roads are unbounded and continuous; the drift of the simplified road grows with the number of points and needs long, slowly bending roads to be seen.", "anchors": ["src/cpp/DPSS/DpssUtilities.cpp:Dpss::PreProcessPath", "src/cpp/DPSS/DpssUtilities.cpp:Dpss::ComputeSeperation", "src/cpp/DPSS/PlanQuickly.cpp:Dpss::PlanQuickly"]}
{"id": "C166", "title": "A waypoint is taken out of a searching plan only if it coincides with the one before", "statement": "From the points of a plan those are removed, and only those, that are at the same place as the point left before them; the order and the first point are kept.", "quantifier": "all plans, all positions", "why_tests_cant": "Which points are removed depends on the coordinates: the failures need points for which one coordinate equals the other of the point before.", "anchors": ["src/cpp/DPSS/PlanOffset.cpp:Dpss::RemoveZeroLengthSegments", "src/cpp/DPSS/PlanOffset.cpp:Dpss::OffsetPlanForward"]}
{"id": "C167", "title": "The waypoints of a line search see the road under the azimuth and elevation asked for", "statement": "Each waypoint of a line search is beside the point of the simplified road it is for, in such a direction that the point is seen under the asked azimuth (clockwise from the direction of the road) and so far away that it is seen under the asked elevation from the nominal altitude; in a bend it is as far from both legs. Waypoints are put together only where the looks of neighbouring ones to the road cross; then a plan of at least two waypoints without such crossings is left, or one of just two. The plan for flying back is laid out in the same way from the other end.", "quantifier": "all roads, azimuths, elevations, altitudes", "why_tests_cant": "The directions are continuous and the geometry unbounded; which looks cross depends on where the origin of the coordinates happens to be.", "anchors": ["src/cpp/DPSS/PlanOffset.cpp:Dpss::OffsetPlanForward", "src/cpp/DPSS/PlanOffset.cpp:Dpss::OffsetPlanReverse", "src/cpp/DPSS/PlanOffset.cpp:Dpss::CleanUpStareAngles", "src/cpp/Tasks/CmasiLineSearchTaskService.cpp:isCalculateOption"]}
{"id": "C168", "title": "A vehicle searching a line looks at the part of the line it is flying for", "statement": "A vehicle that is at some share of the length of its search route looks at the point that is at the same share of the length of the line searched. Off the route the nearest point of the route counts.", "quantifier": "all lines and routes with a length, all positions of the vehicle", "why_tests_cant": "Positions, lines and routes are continuous; the error is visible only for routes that come near themselves.", "anchors": ["src/cpp/DPSS/Dpss.cpp:Dpss::SetObjective", "src/cpp/DPSS/SensorSteering2.cpp:Dpss::CalculateWpToRdIndexMap", "src/cpp/DPSS/SensorSteering2.cpp:Dpss::CalculateStarePoint", "src/cpp/DPSS/CoordinateConversions.cpp:Dpss::CorrespondingNormalizedRoadLocation", "src/cpp/DPSS/CoordinateConversions.cpp:Dpss::NormalizedRoadPosToXyRoadPos"]}
{"id": "C169", "title": "An option of a line search says where, how and at which cost its route begins and ends", "statement": "Each published option of a line search starts at the first and ends at the last waypoint of its route, its headings are those of the first and the last leg, and its cost is the time for the length of the route at the nominal speed in milliseconds. There is an option for each direction asked for if a route of at least two waypoints can be laid out.", "quantifier": "all lines, looks, speeds, with one or both directions", "why_tests_cant": "The values depend on continuous geometry; the one value that is wrong is wrong only for routes of two waypoints, where it looks like a plausible heading.", "anchors": ["src/cpp/Tasks/CmasiLineSearchTaskService.cpp:CmasiLineSearchTaskService::isCalculateOption", "src/cpp/Tasks/ImpactLineSearchTaskService.cpp:ImpactLineSearchTaskService::isCalculateOption"]}
{"id": "C170", "title": "A vehicle that searches a line is told to look at the line as its own route says", "statement": "While a vehicle works on a line search task, each of its states makes the task send a command for the first gimbal of its first known configuration to look at a point of the line: the point at the same share of the length of the line as the place of the vehicle is of the route of the option that it was given. Before an option is given out nothing is sent, and options that the task does not know change nothing. This holds however often the task is planned and whatever other options are given out.", "quantifier": "all sequences of requests to plan, options given out, configurations and states; all lines, routes and places", "why_tests_cant": "The command depends on the whole history of requests and on real-valued geometry; a test sees a few histories with one standard library.", "anchors": ["src/cpp/Tasks/CmasiLineSearchTaskService.cpp: isProcessTaskImplementationRouteResponse, activeEntityState", "src/cpp/Tasks/ImpactLineSearchTaskService.cpp: isProcessTaskImplementationRouteResponse, activeEntityState", "src/cpp/Tasks/TaskServiceBase.cpp: processReceivedLmcpMessageTaskBase", "src/cpp/Tasks/CmasiLineSearchTaskService.h: m_optionIdVsDpss"]}
{"id": "C171", "title": "A route that respects a turn radius can be flown from the place and heading it begins with to those it ends with", "statement": "Asked for a route from one place and heading to another for a turn radius of at least a metre, the planner answers with waypoints that lie within two metres of a path of at most three parts, turns of that radius and straight lines, which begins at the first place in the first heading and ends within a metre of the second in the second heading. The last waypoint is within 2.5 metres and a 200th of the radius of the second place. There is such an answer unless the distance in metres or the number of waypoints does not fit into an int. If neither heading is to be used, or the radius is below a metre, the answer is the two places.", "quantifier": "all places, headings, turn radii of at least one metre and distances between waypoints", "why_tests_cant": "The claim is about all pairs of positions and headings in the plane; the faults show only at the places where two turning circles coincide or touch, which random tests do not hit.", "anchors": ["src/cpp/Plans/Trajectory.cpp: dCalculateTrajectoryDubins, szMinimumDistanceCircle, szMinimumDistanceTurnTurnTurn", "src/cpp/Plans/VisibilityGraph.cpp: errSmoothPath", "src/cpp/Services/RoutePlannerVisibilityService.cpp"]}
{"id": "C172", "title": "A route that respects a turn radius is not longer than a path that turns, flies straight and turns", "statement": "No path of a turn, a straight line and a turn of the radius that leads from the first place and heading to the second is shorter than the route the planner answers with by more than half a metre.", "quantifier": "all places, headings and turn radii, and all paths of a turn, a straight line and a turn between them", "why_tests_cant": "The claim compares one route with all paths; the routes that are too long come from rounding the distance of two circle centres and appear only for circles that nearly touch or nearly coincide.", "anchors": ["src/cpp/Plans/Trajectory.cpp: dCalculateTrajectoryDubins, szMinimumDistanceCircle"]}
{"id": "C173", "title": "The waypoints of a turn are evenly spaced along it and its segment lengths add up", "statement": "The waypoints laid out along a turn are each the given distance along the arc from the one before, beginning from where the turn begins; the last is where the turn ends, less than two of the distances and, if there is another waypoint, at least one of them after it. The lengths given with the waypoints are above 0 and add up to the length of the turn. The behaviour is undefined exactly if the number of distances in the turn does not fit into an int.", "quantifier": "all turns: places, directions, radii above 0, lengths and distances between waypoints above 0", "why_tests_cant": "The claim is about every length and distance of real numbers, including lengths that are whole multiples of the distance.", "anchors": ["src/cpp/Plans/Trajectory.cpp: AddWaypointsForTurn", "src/cpp/Plans/Assignment.h: dGetDistanceTotal"]}
{"id": "C174", "title": "A calibrated clock tells the reference time plus the time that has passed since", "statement": "Calibrating the clock with a calendar date from 2016 on and a time of day, or with a date and a number of weeks and milliseconds, is accepted, adds one to the number of calibrations, and from then on the time in milliseconds is the number of days between 1 January 1970 and the date, the time of day, and the milliseconds the clock of the machine has run since. A reference before 2016 or with a field outside its range is refused and changes nothing. Exceptions found: days that a month does not have are accepted as days of the next month; times from 11 April 2262, 23:47:17, are undefined; with simulated time an accepted calibration changes no time.", "quantifier": "all dates reachable day by day from 1 January 1970, all times of day, weeks, states of the clock, and readings of the clock of the machine", "why_tests_cant": "The date arithmetic must hold for every day of the Gregorian calendar in the range, and for every moment at which the clock is read later.", "anchors": ["src/cpp/Utilities/UxAS_Time.cpp: calibrateWithReferenceUtcTime, calibrateWithReferenceUtcTimeImpl", "src/cpp/Utilities/UxAS_Time.h: getUtcTimeSinceEpoch_ms, getExternalCalibrationCount"]}
{"id": "C175", "title": "Hours, minutes and seconds are the milliseconds in whole units", "statement": "The time since the epoch and the time since the start in hours, minutes or seconds are the time in milliseconds of the same moment in whole units. Exceptions found: the clock of the machine and the calibration are cut to whole units one by one, so a calibrated clock can be one unit ahead or behind, and the time since the start is one unit too much if the unit changes in between; the difference is never more than one unit.", "quantifier": "all units, calibrations, start times and readings of the clock of the machine", "why_tests_cant": "The claim is about every moment and calibration; the exceptions last for a part of each unit only.", "anchors": ["src/cpp/Utilities/UxAS_Time.h: getUtcTimeSinceEpoch_hr, getUtcTimeSinceEpoch_min, getUtcTimeSinceEpoch_s, getDurationSinceStart_hr, getDurationSinceStart_min, getDurationSinceStart_s"]}
{"id": "C176", "title": "Simulated time is the time of the last entity state", "statement": "From the start of the service that simulates time, and until another kind of time is chosen, the time and the time since the start are the time of the last state of an entity, and 0 before the first state, whatever the clock of the machine says and whoever reads or calibrates the clock. On real time, states of entities change no time. After another kind of time is chosen the clock is one that was never calibrated and starts at its next use. Exception found: simulated time runs backwards when a state comes that is older than the last.", "quantifier": "all states of the clock before the start, all sequences of states, readings and calibrations, and readings of the clock of the machine", "why_tests_cant": "The claim ranges over unbounded sequences of events.", "anchors": ["src/cpp/Services/Test_SimulationTime.cpp: initialize, processReceivedLmcpMessage", "src/cpp/Utilities/UxAS_Time.cpp: getInstance", "src/cpp/Utilities/UxAS_Time.h: setTimeMode, resetDiscreteTime_ms, setDiscreteTime_ms, DiscreteTime"]}
{"id": "C177", "title": "The enabled services and bridges are those of the document loaded last", "statement": "After a configuration document is loaded with success, the enabled services and the enabled bridges are the elements of that name below its first UxAS element, in their order, under an element that carries the id and the type of the entity; this holds whatever was loaded, unloaded and asked before, and however often it is asked. After unloading, and before the first load, there are none. Exception found: after a load that fails, services or bridges that were asked for before are still returned.", "quantifier": "all sequences of loads (with success or not), unloads and requests, and all documents", "why_tests_cant": "What is returned is cached and depends on flags set by all calls before; the claim ranges over all sequences of calls.", "anchors": ["src/cpp/Utilities/UxAS_ConfigurationManager.cpp: loadXml, unloadBaseXml, unloadXml, getEnabledServices, getEnabledBridges, populateEnabledComponentXmlNode"]}
{"id": "C178", "title": "A loaded document sets the identity and the parameters of the entity", "statement": "A document is loaded with success exactly if it can be parsed and its UxAS element has an id and a type. The entity then has this id and type, and the start delay, run duration and logging flags of the document, or the defaults for those it leaves out; a document that is not loaded changes none of them. Exceptions found: a document without a UxAS element is loaded with success and leaves the id as it was; values left out are those of an earlier document; a document with an id and without a type fails but changes the id.", "quantifier": "all documents and all states before", "why_tests_cant": "The claim ranges over all documents and over whatever was loaded before.", "anchors": ["src/cpp/Utilities/UxAS_ConfigurationManager.cpp: setEntityValuesFromXmlNode, loadXml"]}
{"id": "C179", "title": "Default configurations and bridges come from the loaded document", "statement": "The default configuration of a type of service is the first Service element of that type in the loaded document, and nothing if there is none or no document is loaded; without a type it is the configuration of all services. When the bridges of an entity are started, those of the document whose type is known and that start are running, in their order and with distinct ids, whichever others fail; starting them again fails and changes nothing. Exception found: without a type only the first service is returned.", "quantifier": "all documents, types, histories before the load, and all outcomes of starting each bridge", "why_tests_cant": "The claim ranges over all documents and over every combination of bridges that fail.", "anchors": ["src/cpp/Utilities/UxAS_ConfigurationManager.cpp: getDefaultServiceXmlNode", "src/cpp/Communications/LmcpObjectNetworkBridgeManager.cpp: initialize, createBridge"]}
{"id": "C180", "title": "A loiter task has its vehicle loiter once, at the end", "statement": "The answer of a loiter task for a vehicle whose state is known has the action that the task asks for at the last of its waypoints that is for the task, with the altitude of the vehicle, and no action on the way; a vehicle whose state is not known gets no action. Exceptions found: the list ends in a copy of that waypoint, which has the action too, so that the vehicle is told to loiter twice; and if all routes came back empty the last of no waypoints is looked at, which is undefined.", "quantifier": "all tasks, all histories of messages, all routes of the planner that end in two waypoints apart, the last of which leads nowhere, without actions or tasks of their own", "why_tests_cant": "All histories of requests and routes, of any length, with tasks taken up again.", "anchors": ["src/cpp/Tasks/LoiterTaskService.cpp: isProcessTaskImplementationRouteResponse", "src/cpp/Tasks/TaskServiceBase.cpp: processImplementationRoutePlanResponseBase"]}
{"id": "C181", "title": "A must-fly task is flown at the altitude of its position", "statement": "All waypoints of the answer of a must-fly task have the altitude and the altitude type of the position of the task and the nominal speed of the vehicle; there are none exactly if the vehicle has no configuration. The waypoints are still numbered one after the other.", "quantifier": "all positions, all histories of messages, all routes", "why_tests_cant": "All histories of requests and routes, of any length.", "anchors": ["src/cpp/Tasks/MustFlyTaskService.cpp: isProcessTaskImplementationRouteResponse", "src/cpp/Tasks/TaskServiceBase.cpp: processImplementationRoutePlanResponseBase"]}
{"id": "C182", "title": "A point search can complete, and its vehicle looks at the point", "statement": "The answer of a point search for a vehicle whose state is known starts with a waypoint at which the vehicle is told to look at the point with the last of its gimbals; it has the action asked for, if any, for the task and with the altitude of the waypoint, at the last waypoint that is for the task; and it ends in a waypoint that leads to itself and is not for the task, so that the task can complete. Exceptions found: for a surface vehicle with an action to do the last waypoint is for the task in every answer, so that completion is never reported; for others the action is in the answer twice; a vehicle without a gimbal is told to look with payload 0.", "quantifier": "all tasks, all histories of messages, all routes of the planner that end in two waypoints apart, the last of which leads nowhere, without actions or tasks of their own", "why_tests_cant": "All histories of requests and routes, of any length; that a task never completes cannot be seen in a run that ends.", "anchors": ["src/cpp/Tasks/ImpactPointSearchTaskService.cpp: isProcessTaskImplementationRouteResponse", "src/cpp/Tasks/TaskServiceBase.cpp: processImplementationRoutePlanResponseBase"]}
{"id": "C183", "title": "A place beside a plan is mapped to the same share of a road", "statement": "For a plan and a road that have a length, the point of the road given for a place is where the same share of the road is behind as is of the plan at a point of the plan that is nearest to the place (up to hundredths of a millimetre and the ratio of the lengths). Without lengths it is the start of the road. A map made beforehand for a plan and a road gives the same points. Exceptions found: a map made beforehand does so only for points on the first segment of the road; on the others it takes a share for a distance and points too far, also beyond the end of the road; to make a map of an empty road or plan is undefined.", "quantifier": "all plans, roads and places", "why_tests_cant": "Reals; plans and roads of any length and shape; a test on a road of one segment shows no difference.", "anchors": ["src/cpp/DPSS/SegmentMap.cpp: CalculateStarePoint, SnapToSegment, Initialize", "src/cpp/DPSS/DpssDataTypes.cpp: Segment::closestPoint"]}
{"id": "C184", "title": "Each logger is given the messages of its level", "statement": "After any sequence of adding and removing loggers, changing levels, switching thread ids and logging, the loggers are the earlier ones and the added ones, in order, without those removed since; each has the level that was set last for it and was given exactly the messages of at least the level it had at the time, in order. An entry has the time at which logging began, the thread if wanted, and all tokens one after the other. Exception found: a message that begins with an empty token has its thread id twice and the time of a later token.", "quantifier": "all histories of adding, removing, setting and logging, all messages", "why_tests_cant": "All interleavings of changes of loggers and messages.", "anchors": ["src/cpp/Utilities/UxAS_LogManager.h: LogManager::log, addLogger, removeLoggers, setLoggersSeverityLevelThreshold", "src/cpp/Utilities/UxAS_LoggerBase.h: HeadLogData", "src/cpp/Utilities/UxAS_LogManager.cpp"]}
{"id": "C185", "title": "A log spread over files is complete and in order", "statement": "As long as files can be opened, the files of a file logger hold all lines in order, exactly the limit in each file but the last, and no file name is used twice (for fewer than 2^32 files). Exception found: lines written while a file cannot be opened are lost although the call reports success, and the next files report the wrong file as not closed.", "quantifier": "all lists of lines, all limits from 1 to 2^32-2, with and without time stamps", "why_tests_cant": "Logs of any length and any limit; boundaries of files.", "anchors": ["src/cpp/Utilities/UxAS_FileLogger.cpp: outputToStream, outputTextToStream, openStream, closeStream, closeAndOpenStream", "src/cpp/Utilities/UxAS_LoggerBase.h"]}
{"id": "C186", "title": "Logged messages are in the database as they were", "statement": "Texts given to the database logger are one row with these texts if and only if none has an apostrophe or a zero byte. All messages received are stored in one database in order, each on its own; a message without apostrophes as a row with its time, descriptor, group, entity, service and text; a log entry with quotes and apostrophes escaped. Exceptions found: the messages themselves are not escaped, so one with an apostrophe (in a label) is lost without an error, and one can write rows of its own making; after a database could not be opened again the next insertion uses a null pointer.", "quantifier": "all messages and sequences of messages, all log entries, all texts", "why_tests_cant": "All texts and all sequences; tests use texts without apostrophes.", "anchors": ["src/cpp/Services/MessageLoggerDataService.cpp: initialize, processReceivedLmcpMessage", "src/cpp/Utilities/UxAS_DatabaseLoggerHelper.cpp: outputTextToStream, openStream, closeAndOpenStream", "src/cpp/Utilities/UxAS_HeadLogDataDatabaseLogger.cpp"]}
{"id": "C187", "title": "Escaping of quotes and apostrophes", "statement": "Escaping replaces each quote and each apostrophe by its entity and nothing else, so that none is left; unescaping gives back every text that has neither entity in it. Exceptions found: a text with an entity in it comes back different; the escaping of the other characters never ends for a text with an ampersand.", "quantifier": "all texts", "why_tests_cant": "All texts; replacement in place while searching on from the front.", "anchors": ["src/cpp/Utilities/UxAS_XmlUtil.h: escapeXmlQuoteApostropheChars, unescapeXmlQuoteApostropheChars, escapeXmlAmpersandLessThanGreaterThanChars"]}
{"id": "C188", "title": "Numbered directories and files are new", "statement": "Directories made one after the other in a directory get the next numbers, up to 9999, and are different from each other and from all that are there. Texts saved one after the other in an empty directory are each in a file of their own. Texts spread over subdirectories are in them in order, exactly the limit in each but the last, for up to 9999 subdirectories. Exceptions found: from the number 10000 on the same number is used again, so that at the same time the same directory is given, and a subdirectory has no limit any more; after a file was removed the next text is added to another file; without a slash at the end of the path subdirectories are made beside it, all texts as number 1; when the directory cannot be made, saving reports success.", "quantifier": "all file systems, names, times and sequences of calls", "why_tests_cant": "Sequences of thousands of calls and all contents of directories.", "anchors": ["src/cpp/Utilities/FileSystemUtilities.cpp: bCreateUniqueDirectory, bFindUniqueFileName, bSaveStringToUniqueFile, bSaveStringToFile, bCreateDirectory"]}
{"id": "C189", "title": "Each response is saved with what it was about", "statement": "After any messages, the first response to a known request makes a new directory that has exactly: the state of each listed entity (its first planning state in the request, otherwise the last one received; of all known entities if none is listed), each listed task, the area, line, point, watched or blocked entity of these tasks, the keep-in and keep-out zones of the operating region, each as received last and if known, the response, and the scripts. All other files stay. A response to an unknown request saves nothing. Exception found: with a second response to a request without entities, those new since the first one are missing.", "quantifier": "all sequences of messages with at most 9999 responses (less the number of directories that are there)", "why_tests_cant": "All orders of messages and repeated ids.", "anchors": ["src/cpp/Services/AutomationDiagramDataService.cpp: processReceivedLmcpMessage, ProcessUniqueAutomationResponse"]}
{"id": "C190", "title": "The stream transport returns every framed message once and sends to every connected peer once", "statement": "Over repeated calls getNextMessage of the TCP stream transport returns exactly the messages that the peers framed, each once and in order, however the streams are cut and whichever peers send; the peers it knows are the senders of the packets it has taken, each once; a message of a server reaches every connected peer exactly once and a message of a client reaches its server; what sendMessage sends is returned on the other side with the given address, content type, descriptor and payload and the sender's ids.", "quantifier": "all sequences of packets of all peers, all cuts of the streams, all messages whose text can be framed, all numbers of calls, all sets of connected peers", "why_tests_cant": "Cuts, interleavings of peers and connections that end at any moment form an unbounded space; the shared buffer and the frame order on the socket fail only for particular orders.", "anchors": ["src/cpp/Communications/ZeroMqAddressedAttributedMessageTcpReceiverSender.cpp:getNextMessage", "src/cpp/Communications/ZeroMqAddressedAttributedMessageTcpReceiverSender.cpp:sendMessage", "src/cpp/Communications/ZeroMqAddressedAttributedMessageTcpReceiverSender.cpp:sendAddressedAttributedMessage", "src/cpp/Communications/ZeroMq/Receivers/MsgReceiverSentinel.cpp:receive"]}
{"id": "C191", "title": "A route round corners leads to the first corner, over the corners and on from the last one", "statement": "The waypoints generated for a path over corners of the zones are those of a path to the first corner that a vehicle with the turn radius can fly and that reaches it in the direction in which a turn and a straight line would, no longer than these by more than half a metre; then the corners in their order, without those less than a metre from the place before; then those of a path the vehicle can fly that begins at the last corner in the direction in which it was reached and ends at the place and in the direction asked for.", "quantifier": "all beginnings, headings, sequences of corners, ends, end headings, turn radii of at least a metre and waypoint separations above a bound that depends on the radius", "why_tests_cant": "The heading at the first corner comes from a case distinction over two circles and the signs of angles, and the heading at the last one from a search over the waypoints; errors show only for particular numbers of corners and directions among infinitely many.", "anchors": ["src/cpp/Plans/VisibilityGraph.cpp:errGenerateWaypoints", "src/cpp/Plans/VisibilityGraph.cpp:errSmoothPath", "src/cpp/Plans/Trajectory.cpp:CalculateTaskHeading", "src/cpp/Plans/Assignment.h:dCalculateFinalHeading_rad"]}
{"id": "C192", "title": "The boundary of a zone is the boundary the planner avoids", "statement": "For every zone message the visibility planner accepts, the polygon it plans around is the zone: a polygon zone keeps its points in their order; a rectangle zone becomes exactly the rectangle of the given width and height about its centre, turned clockwise by its rotation; a circle becomes twenty points on it, 18 degrees apart, whose polygon lies within the circle and covers everything farther than r(1 - cos 9 deg) from its edge. Only a geometry of another kind is refused.", "quantifier": "all circles, polygons and rectangles (any centre, radius, size, rotation), all places of the plane, any conversion of latitudes and longitudes", "why_tests_cant": "The covered area is a statement about every point of the plane for every radius and rotation; a test compares a few corner points, and would not show the slivers between the points of a circle.", "anchors": ["src/cpp/Services/RoutePlannerVisibilityService.cpp: bFindPointsForAbstractGeometry, bProcessZone", "src/cpp/Plans/Waypoint.h: RotateAboutOriginByHeading", "src/cpp/Plans/VisibilityGraph.cpp: errExpandAndMergePolygons"]}
{"id": "C193", "title": "Whether a point is in a polygon", "statement": "A polygon of the route planner is asked whether it contains a point (this decides which edges of keep-out zones that overlap a keep-in boundary may be flown). The answer is yes for every point inside by the even-odd rule and for every point of an edge, and a yes is only given for points inside or near an edge (the distances to its two ends add up to less than a centimetre more than its length). There is always an answer: the question neither throws, nor is undefined, nor goes on without end.", "quantifier": "all polygons with any number of corners, convex or not, also with edges that cross each other, and all points", "why_tests_cant": "The answer depends on the place of every corner and of the point relative to the lines of a 5 by 5 grid over the polygon; there are five different rules per cell, chosen by which sides of the cell any edge touches. No finite set of polygons shows that all of them agree with the even-odd rule.", "anchors": ["src/cpp/Plans/Polygon.cpp: CPolygon::InPolygon, GridTest, PointInBoundingBox, FindPolygonBoundingBox", "src/cpp/Plans/CGrid.cpp: CGrid::CGrid, Setup_Corner_Value, Setup_GridData, InPolygon", "src/cpp/Plans/VisibilityGraph.cpp: 226-262"]}
{"id": "C194", "title": "From request to published missions, across four services", "statement": "Let the request validator, the route aggregator, the assignment service and the plan builder exchange messages over a bus that may delay, lose, repeat and reorder them, with vehicles, tasks, route planners and operators sending anything at any time. If requests have different ids, then whenever a request is answered with a plan: the request was admissible when it arrived and all its tasks were initialised before it was published; the plan builder had received an assignment for it, asked the tasks of the assignment, in its order, in the operating region of the request and only for vehicles of the request, and sent just that plan; and the assignment was calculated from the tasks of the request, with options of every one of them and costs sent for this request; each of these costs was reported by a planner and is of a vehicle of the request to an option of one of its tasks for which the vehicle is eligible. If tasks always send the same options, the tasks are asked in the order of a feasible schedule. A plan sent for the request in flight is answered at once when it arrives.", "quantifier": "all interleavings and contents of messages of the four services and of their environment, all configurations, and all iteration orders of the hash tables", "why_tests_cant": "a system test sees one order of messages; the claim is about every order, including late and repeated ones, over four services at once", "anchors": ["src/cpp/Services/AutomationRequestValidatorService.cpp:HandleAutomationRequest", "src/cpp/Services/AutomationRequestValidatorService.cpp:HandleAutomationResponse", "src/cpp/Services/AssignmentTreeBranchBoundBase.cpp:processReceivedLmcpMessage", "src/cpp/Services/PlanBuilderService.cpp:processTaskAssignmentSummary", "src/cpp/Services/PlanBuilderService.cpp:checkNextTaskImplementationRequest", "src/cpp/Services/RouteAggregatorService.cpp:SendMatrix"]}
{"id": "C195", "title": "Entities bridged by Zyre get exactly what they asked for", "statement": "When an entity with a Zyre bridge appears at the Zyre bridge of another entity and stays, then of everything published there it gets on its own network exactly the exportable messages of that entity whose address begins with one of its configured external subscriptions or with its entity address, each once, in order and unchanged (with ConsiderSelfGenerated under its own source), except those addressed to the bridge itself; arrivals and departures of peers are announced with the number and type they gave.", "quantifier": "all configurations of the receiving bridge, all histories of arrivals and departures of peers before and meanwhile, all sequences of published messages", "why_tests_cant": "The claim joins the XML settings, the header text, the peer tables, the framing and the parser of both sides over arbitrary histories; a shift by one message after a single bad payload shows only in long runs.", "anchors": ["src/cpp/Communications/LmcpObjectNetworkZeroMqZyreBridge.cpp: configure, zyreEnterMessageHandler, zyreExitMessageHandler, zyreWhisperMessageHandler, processReceivedSerializedLmcpMessage", "src/cpp/Communications/ZeroMqZyreBridge.cpp: executeZyreEventProcessing, sendZyreWhisperMessage", "src/cpp/Utilities/UxAS_Zyre.h: zyreWhisper2, zmsgPopstr"]}
{"id": "C196", "title": "Merging zones keeps every zone", "statement": "When zones are merged before a route is planned, each place of each zone is in one of the merged zones and each place of these was in a zone; two merged zones do not meet; a zone that meets no other comes out unchanged; and the merge ends for any zones.", "quantifier": "all lists of polygons, all geometries in which a union that is one polygon has the places of both", "why_tests_cant": "Which polygons are merged with which, in which order, depends on the numbers of all pairs that overlap; the defect needs two crosswise pairs, and tests with two or three zones never show it.", "anchors": ["src/cpp/VisilibityLib/visilibity.cpp: Polygon::boost_union, find_overlap, Polygon::offset_polygons", "src/cpp/Plans/VisibilityGraph.cpp: CVisibilityGraph::errExpandAndMergePolygons"]}
{"id": "C197", "title": "The padding of a zone is covered", "statement": "When zones are padded before a route is planned, every place that is no further from the boundary of a zone than its padding is within one of the pieces that are merged with the zone, the zone itself is among what is merged, and no piece reaches further from the boundary of its zone than the padding times the square root of two (or the padding and half the tolerance).", "quantifier": "all polygons (convex or not, either orientation) whose edges are longer than the tolerance and whose neighbouring edges are parallel up to the tolerance only if they go straight on, all paddings, all lists of zones, all places of the plane", "why_tests_cant": "Whether the pieces leave a gap depends on the angle at each corner, on which side of it is outside and on the orientation of the polygon; it is a statement about every point of the plane.", "anchors": ["src/cpp/VisilibityLib/visilibity.cpp: Polygon::offset_polygons, Angle, Point::normalize, Point::rotate, intersection_point", "src/cpp/Plans/VisibilityGraph.cpp: CVisibilityGraph::errExpandAndMergePolygons"]}
{"id": "C198", "title": "A region's zones are padded and merged whatever the paddings of the other zones", "statement": "A region whose zones are simple polygons that can be merged is taken up, whatever the paddings and the order of its zones; each place in a zone to be kept out of, or in its padding, is then in one of the merged zones, unless that is no larger than 1 square metre.", "quantifier": "all lists of zones of any length with any paddings, all geometry libraries that meet the stated contracts, all histories of messages to the planner", "why_tests_cant": "Whether a region is refused depends on the order of all zones and their paddings; tests give all zones the same padding or none.", "anchors": ["src/cpp/Plans/VisibilityGraph.cpp: CVisibilityGraph::errExpandAndMergePolygons", "src/cpp/VisilibityLib/visilibity.cpp: Polygon::offset_polygons", "src/cpp/Services/RoutePlannerVisibilityService.cpp: bProcessOperatingRegion"]}
{"id": "C199", "title": "A point search does not loiter in a zone to be kept out of", "statement": "When an impact point search computes its options and the point around which it would loiter is in a keep-out zone, or its circle comes to within 0.1 m of the boundary of one, the loiter is moved so that afterwards it is in no zone and at none, by the smallest way to the boundary and one and a half loiter radii beyond; a loiter in no zone and at none stays where it was asked for, and once moved it stays there for the further headings and options.", "quantifier": "all lists of convex zones, all points and loiter radii, any number of headings and options computed", "why_tests_cant": "A test has a zone or two and one point; that the loiter is clear of every zone depends on the distances between all of them, and with two zones near each other the location goes to and fro for as many calls as there are headings.", "anchors": ["src/cpp/Tasks/ImpactPointSearchTaskService.cpp: isCalculateOption", "src/cpp/Tasks/ImpactPointSearchTaskService.cpp: processReceivedLmcpMessageTask", "src/cpp/VisilibityLib/visilibity.cpp: Point::projection_onto_boundary_of"]}
{"id": "C200", "title": "Padded zones are merged whole", "statement": "When the zones of a region are padded and merged, the merge ends without touching memory outside its list, and each zone is, together with everything that is no further from its boundary than its padding, within one of the polygons that result; zones that are apart with their paddings come out as separate polygons.", "quantifier": "all lists of zones of any shape (no two neighbouring edges parallel up to the tolerance), all paddings and tolerances, all geometry libraries that meet the stated contract", "why_tests_cant": "The list that is merged has two pieces for every corner of every zone, and in which order they are removed depends on which of all these pieces meet; tests have one zone, or zones far from each other, where the order happens to be right.", "anchors": ["src/cpp/VisilibityLib/visilibity.cpp: Polygon::offset_polygons, Polygon::boost_union, find_overlap", "src/cpp/Plans/VisibilityGraph.cpp: CVisibilityGraph::errExpandAndMergePolygons"]}
{"id": "C201", "title": "The assignment search gives up what cannot be improved on", "statement": "While an assignment is searched, only those beginnings of assignments stay in memory that can still lead to a complete assignment better than the best known; when the search has ended nothing of the tree of beginnings is left, and what is given up on the way has no influence on the assignment published.", "quantifier": "all process algebra formulas, vehicles, cost matrices, limits on the number of nodes, and orders in which the vehicles are tried", "why_tests_cant": "What stays in memory is not visible in any message; tests have few tasks, and the number of beginnings kept grows with the factorial of their number.", "anchors": ["src/cpp/Services/AssignmentTreeBranchBoundBase.cpp: c_Node_Base::PruneChildren, c_Node_Base::ExpandNode", "src/cpp/Services/AssignmentTreeBranchBoundBase.h: m_costVsChildren, m_isLeafNode, m_isPruneable"]}
{"id": "C202", "title": "The program starts, runs and ends as the command line says", "statement": "The program loads the configuration file and runs for the time named last on the command line (else cfg.xml and the configured time); an argument that is unknown, has no value or no proper value makes it end with an error before anything is started; if a step of the start fails the exit code tells which, nothing after it is started, and everything started before is stopped before it is freed.", "quantifier": "all command lines, all outcomes of the steps of the start", "why_tests_cant": "Tests use one form of the command line and a start that succeeds; the combinations of options, values and failing steps are unbounded.", "anchors": ["src/cpp/UxAS_Main.cpp: main", "src/cpp/Communications/LmcpObjectNetworkServer.cpp: ~LmcpObjectNetworkServer, terminate"]}
{"id": "C203", "title": "The limit on the number of nodes bounds the assignment search", "statement": "With a limit on the number of nodes configured (0, the default, or more), the search for an assignment ends once the limit is passed: it visits no more nodes than the limit, or than it takes to go down to a first complete assignment with every option tried with every vehicle at each step, and the trials of one step more.", "quantifier": "all expressions, vehicles, travel times, orders of the vehicles and limits", "why_tests_cant": "The number of nodes is a count over a tree that grows as the factorial of the number of tasks; a test sees one instance, and an instance on which the limit fails does not end.", "anchors": ["src/cpp/Services/AssignmentTreeBranchBoundBase.cpp: c_Node_Base::NodeAssignment, c_Node_Base::ExpandNode (m_numberNodesMaximum, m_numberNodesVisited, m_isStopCondition)"]}
{"id": "C204", "title": "The configured services are started, and the start announced when all are", "statement": "After a configuration is loaded, starting the service manager starts every Service element of the document whose type is registered and whose service can be configured, initialised and started, and nothing else: in the order of the document, each under an id of its own. The element with the settings of the manager itself is passed over. The start succeeds, and StartupComplete is sent, exactly if all the other elements were started; if it does not succeed, no service goes on running.", "quantifier": "all documents, all histories of loading and unloading before, all sets of registered types and all behaviours of the services when started, any number of ids taken by other parts of the program meanwhile, all states of the id counter short of its wrap", "why_tests_cant": "The order, the ids and the outcome depend on the combination of elements and of failures anywhere in an unbounded document; a test starts a few configurations, nearly always ones in which all services start.", "anchors": ["src/cpp/Services/ServiceManager.cpp: ServiceManager::initialize, ServiceManager::createService, ServiceManager::instantiateConfigureInitializeStartService"]}
{"id": "C205", "title": "The run ends when its time is over or a stop was asked for, with no service left", "statement": "The run of the program goes on until its configured time is over, or until a stop of all services was asked for and none runs any more. Once the time is over it ends within a bounded number of looks whatever the services do. If no stop was asked for, it first asks every service that still runs to stop. In both cases no service runs when it ends. The processor is shut down only if a stop was asked for.", "quantifier": "all durations, all clocks, all states of the manager, all events (services created, ended, asked to stop, by any thread) between any two looks of the main thread, any behaviour of bridges and threads", "why_tests_cant": "The outcome depends on how requests, ends of threads and the clock interleave with the looks of the main thread, over runs of any length; a test sees one interleaving.", "anchors": ["src/cpp/Services/ServiceManager.cpp: ServiceManager::runUntil, ServiceManager::removeTerminatedServices, ServiceManager::terminateAllServices"]}
{"id": "C206", "title": "All bridges are asked to stop", "statement": "When all services are to stop, every bridge whose thread has not ended is asked to stop, once, and no other, whatever the main thread and the threads of the bridges do meanwhile; no entry of the table of bridges is used after it was removed.", "quantifier": "all tables of bridges and all interleavings of the loop that asks them, the ends of their threads and the passes of the main thread that remove those that ended", "why_tests_cant": "The failure needs a pass of the main thread, which comes every half second, in the microseconds in which the loop is at a bridge that has just ended; a test that hits it sees a crash at most.", "anchors": ["src/cpp/Communications/LmcpObjectNetworkBridgeManager.cpp: LmcpObjectNetworkBridgeManager::terminateAllBridges, LmcpObjectNetworkBridgeManager::removeTerminatedBridges", "src/cpp/Services/ServiceManager.cpp: ServiceManager::terminateAllServices, ServiceManager::removeTerminatedServices"]}
{"id": "C207", "title": "A new service listens to its addresses", "statement": "A service that is started listens to its own address, made of the entity and the id it has in the end (those passed in by its creator, if any, otherwise the configured entity and the next id), to the address of all services of its entity, to KillService, to its message group if that is not empty and to whatever its own configuration asks for; and to nothing else, in particular not to the address it had before an id was passed in.", "quantifier": "all entities, ids, passed ids and entities, message groups, lists of addresses asked for and addresses", "why_tests_cant": "Which addresses remain depends on the order of the requests and on equalities between addresses built from any numbers and any configured strings.", "anchors": ["src/cpp/Communications/LmcpObjectNetworkClientBase.cpp: LmcpObjectNetworkClientBase::configureNetworkClient, LmcpObjectNetworkClientBase::addSubscriptionAddress", "src/cpp/Services/ServiceBase.cpp: ServiceBase::configureService", "src/cpp/Services/ServiceManager.cpp: ServiceManager::instantiateConfigureInitializeStartService"]}
