{"id": "C01", "title": "Allocated blocks never overlap", "statement": "After any sequence of Alloc, Free and Defragment calls, any two blocks that are currently allocated occupy disjoint index ranges, every allocated block lies inside [0, num_indices()), and allocated plus recycled blocks exactly tile [0, num_indices()).", "quantifier": "every finite history of Alloc(count>0) / Free(live index) / Defragment calls", "why_tests_cant": "the number of histories is unbounded and overlap depends on the exact fragmentation pattern", "anchors": ["include/motive/util/index_allocator.h: Alloc, Free, Defragment, VerifyInternalState"]}
{"id": "C02", "title": "Alloc recycles before it grows, and never hands out a live index", "statement": "Alloc(n) returns the start of a block of exactly n indices none of which was allocated; all previously allocated blocks keep their start and size; num_indices() grows (by exactly n) only if no recycled block had size >= n; an exact-size recycled block is preferred over splitting a bigger one, and otherwise the smallest sufficient block is split.", "quantifier": "every reachable allocator state and every count > 0", "why_tests_cant": "best-fit choice depends on the whole free list; unit tests sample a few lists", "anchors": ["include/motive/util/index_allocator.h: Alloc, InitializeIndex"]}
{"id": "C03", "title": "Defragment terminates", "statement": "Defragment() finishes (no infinite loop, no out-of-range access, no failed assertion) from every reachable state, whatever the pattern of holes.", "quantifier": "every reachable allocator state", "why_tests_cant": "the loop has no syntactic bound; termination needs a global ranking argument over all fragmentation patterns", "anchors": ["include/motive/util/index_allocator.h: Defragment, BackfillFirstUnused, LastIndexRangeSmallerThanHole, ConsolidateUnusedIndices"]}
{"id": "C04", "title": "Defragment leaves no holes", "statement": "After Defragment(), NumUnusedIndices() is 0 and num_indices() equals the sum of the sizes of the blocks that were allocated before the call; blocks keep their sizes.", "quantifier": "every reachable allocator state", "why_tests_cant": "needs every fragmentation pattern", "anchors": ["include/motive/util/index_allocator.h: Defragment, NumUnusedIndices"]}
{"id": "C05", "title": "Defragment moves client data with its block", "statement": "If the client applies each MoveIndexRange(source,target) callback to a data array by copying, then after Defragment() every allocated block finds at its new position exactly the data that it had before the call, element by element; blocks only ever move towards lower indices, and every callback moves only allocated blocks onto indices that hold no allocated block.", "quantifier": "every reachable allocator state and every data array contents", "why_tests_cant": "requires every overlap pattern of shifts and fills", "anchors": ["include/motive/util/index_allocator.h: Defragment, BackfillFirstUnused, CallbackInterface::MoveIndexRange", "src/motive/processor.cpp: MoveIndexRangeBase"]}
{"id": "C06", "title": "Motivator handles stay sane", "statement": "For every history of Initialize, Invalidate/destroy, move-construct, move-assign, CloneFrom and AdvanceFrame on any number of motivators, every motivator is Sane(): either it is invalid, or its processor's back-pointers for all its Dimensions() slots name exactly that motivator.", "quantifier": "every finite history of motivator operations on any number of motivators and processors", "why_tests_cant": "handle/back-pointer aliasing bugs show only under particular interleavings of frees, moves and compactions", "anchors": ["include/motive/motivator.h: Motivator (move ctor/assign, Invalidate, CloneFrom, Sane)", "src/motive/processor.cpp: AllocateMotivatorIndices, RemoveMotivator, TransferMotivator, MoveIndexRangeBase"]}
{"id": "C07", "title": "Distinct live motivators own disjoint storage", "statement": "At every point of every history, two different valid motivators of the same processor refer to disjoint slot ranges.", "quantifier": "every finite history of motivator operations", "why_tests_cant": "aliasing shows only under particular interleavings", "anchors": ["src/motive/processor.cpp: AllocateMotivatorIndices", "include/motive/util/index_allocator.h"]}
{"id": "C08", "title": "Compaction is invisible through the handle", "statement": "AdvanceFrame's compaction step (Defragment) never changes what is read through any live motivator: the values and Dimensions() seen through each handle before and after the compaction are equal, even though indices change.", "quantifier": "every reachable processor state and every live motivator", "why_tests_cant": "depends on all hole patterns", "anchors": ["include/motive/processor.h: Defragment", "src/motive/processor.cpp: MoveIndexRangeBase", "include/motive/simple_processor_template.h: MoveIndices"]}
{"id": "C09", "title": "Operations on one motivator do not disturb another", "statement": "Initialising, invalidating, moving or cloning one motivator leaves the values, dimensions and validity of every other live motivator unchanged (apart from the declared source/target of the operation).", "quantifier": "every reachable state, every operation, every bystander motivator", "why_tests_cant": "non-interference is a property of all pairs of handles in all states", "anchors": ["src/motive/processor.cpp", "include/motive/motivator.h"]}
{"id": "C10", "title": "Move transfers ownership", "statement": "After `b = std::move(a)` (or move construction) of a valid motivator a, with a and b distinct, b is valid and reads exactly what a read, a is invalid and what b owned before is freed; moving from an invalid motivator leaves b invalid. Self-move invalidates.", "quantifier": "every reachable state and every pair of motivators", "why_tests_cant": "needs all aliasing cases", "anchors": ["include/motive/motivator.h: Motivator(Motivator&&), operator=", "src/motive/processor.cpp: TransferMotivator"]}
{"id": "C11", "title": "CloneFrom makes an independent copy", "statement": "After b.CloneFrom(&a) with a valid and a processor that supports cloning, b is valid, reads what a reads, and owns slots disjoint from a's; a is unchanged. With a null/invalid source or a processor without cloning support b becomes invalid.", "quantifier": "every reachable state and pair of motivators", "why_tests_cant": "aliasing shows only in some states", "anchors": ["include/motive/motivator.h: CloneFrom", "src/motive/processor.cpp: CloneMotivator"]}
{"id": "C12", "title": "Destroying a processor resets all of its motivators", "statement": "When a processor is destroyed (MotiveEngine::Reset or engine destruction), every motivator it was driving becomes invalid and no motivator of another processor is affected.", "quantifier": "every reachable state", "why_tests_cant": "number and layout of motivators is unbounded", "anchors": ["src/motive/processor.cpp: ~MotiveProcessor", "src/motive/engine.cpp: Reset"]}
{"id": "C13", "title": "One processor per type per engine", "statement": "Whatever sequence of Processor(type) requests and factory registrations is made, the engine holds at most one processor per type, calls the factory at most once per type between Resets, always returns the same processor for a type, and a second registration for a type never replaces the first; an unregistered type yields null.", "quantifier": "every finite history of RegisterProcessorFactory / Processor(type) calls", "why_tests_cant": "histories are unbounded", "anchors": ["src/motive/engine.cpp: Processor, RegisterProcessorFactory"]}
{"id": "C14", "title": "AdvanceFrame updates every processor exactly once, in priority order", "statement": "Each AdvanceFrame(dt) calls AdvanceFrame(dt) exactly once on every processor of the engine, and a processor with lower Priority() is always updated before one with higher Priority(), whatever order they were created in.", "quantifier": "every creation order and number of processors", "why_tests_cant": "all creation orders/histories", "anchors": ["src/motive/engine.cpp: AdvanceFrame", "include/motive/engine.h: ProcessorDetails::operator<"]}
{"id": "C15", "title": "Engine remains usable after Reset", "statement": "After Reset(), AdvanceFrame and Processor() never touch a destroyed processor. (Suspected false: Reset does not clear the sorted set.)", "quantifier": "every history containing Reset", "why_tests_cant": "requires histories that continue after Reset; use-after-free is silent", "anchors": ["src/motive/engine.cpp: Reset, AdvanceFrame"]}
{"id": "C16", "title": "Range normalisation lands in the half-open interval and preserves the residue", "statement": "For a range of positive length, Normalize (for x within one length), NormalizeCloseValue and NormalizeWildValue (for any x) return a value in (start, end] that differs from x by an integer multiple of the length; values already in (start,end] are unchanged; the three agree wherever they apply; the result is unique.", "quantifier": "every range of positive length and every real x", "why_tests_cant": "continuum of inputs; boundary cases at start/end", "anchors": ["include/motive/math/range.h: Normalize, NormalizeCloseValue, NormalizeWildValue, ModularAdjustment"]}
{"id": "C17", "title": "Modular differences obey their direction", "statement": "For a range symmetric about 0 and normalised a,b, each of ModDiffClose/Far/Positive/Negative is congruent to b-a modulo the length; Close has minimal magnitude (<= half length), Far is the other-way-round difference with magnitude >= half the length, Positive is in [0,length), Negative is in [-length,0).", "quantifier": "every symmetric range and all a, b in it", "why_tests_cant": "continuum of inputs", "anchors": ["include/motive/math/range.h: ModDiffClose, ModDiffFar, ModDiffPositive, ModDiffNegative, ModDiff"]}
{"id": "C18", "title": "Range set operations", "statement": "Intersect is the largest range inside both arguments (and is invalid exactly when they share no point, in which case Invert() is the gap); Union is the smallest range covering both; Include the smallest containing the range and the point; Clamp is the nearest point of the range; ValuesInRange keeps exactly the values within epsilon of the range, in order, clamped; IntersectRanges yields exactly the pairwise non-empty intersections.", "quantifier": "all ranges, points and value lists", "why_tests_cant": "continuum / unbounded lists", "anchors": ["include/motive/math/range.h: Intersect, Union, Include, Clamp, ValuesInRange, IntersectRanges, IndexOfLongest, CoversLambda"]}
{"id": "C19", "title": "Angles stay unique in (-pi, pi]", "statement": "Every Angle arithmetic operation (+=, -=, *=, /=, unary -, FromRadians, FromDegrees, FromWithinThreePi) yields a value in (-pi, pi] congruent (mod 2 pi) to the mathematical result; + and - form a commutative group on valid angles; angles are equal iff congruent mod 2 pi; degrees in (-180, 180] survive the round trip through an angle.", "quantifier": "all valid angles and all real factors", "why_tests_cant": "continuum of inputs, closure under operation sequences", "anchors": ["include/motive/math/angle.h: operator+=, operator-=, operator-, WrapAngle, ModWithinThreePi, ModIfNegativePi"]}
{"id": "C20", "title": "Angle::Clamp stays within max_diff of center", "statement": "Clamp(center, max_diff) returns a valid angle whose (wrapped) distance from center is at most max_diff, and returns the input unchanged when it is already within max_diff.", "quantifier": "all valid angles, center and 0<=max_diff<=pi", "why_tests_cant": "continuum of inputs", "anchors": ["include/motive/math/angle.h: Angle::Clamp"]}
{"id": "C21", "title": "Quantised nodes are accurate", "statement": "A node stored with (x,y,derivative) inside the spline's x and y range reads back x within half an x_granularity, y no greater than the original and within one rung (range/65535), and derivative angle within one angle unit; values already on the grid are read back exactly.", "quantifier": "all x in [0, 65535*granularity], y in y_range, all derivatives", "why_tests_cant": "continuum of inputs", "anchors": ["include/motive/math/compact_spline_node.h: CompactX, CompactY, CompactDerivative, X, Y, Derivative"]}
{"id": "C22", "title": "Spline nodes are always sorted by x and within capacity", "statement": "After any sequence of AddNode calls that respects the documented precondition, node x-values are nondecreasing and at most two consecutive nodes share an x; every call made without modification succeeds while a slot is free, and every well-behaved call succeeds while two slots are free, so the number of nodes never exceeds max_nodes. (The stronger reading, that no two consecutive nodes are equal, is false of the code: a counterexample is proved.)", "quantifier": "all sequences of AddNode calls with both add methods", "why_tests_cant": "unbounded sequences", "anchors": ["src/motive/math/compact_spline.cpp: AddNode", "include/motive/math/compact_spline.h: AddNodeVerbatim"]}
{"id": "C23", "title": "IndexForX finds the right segment", "statement": "For every spline with sorted nodes, every x and every guess, IndexForX returns kBeforeSplineIndex only if x is before the first node, kAfterSplineIndex only if it is past the last node, and otherwise an index i with node[i].x <= x <= node[i+1].x for the quantised x; away from nodes the result does not depend on the guess. ClampIndex turns such an index into that of a node, the first or last one if x is outside of the spline.", "quantifier": "all splines, all x, all guesses", "why_tests_cant": "unbounded splines and a continuum of x; guess is hidden state", "anchors": ["src/motive/math/compact_spline.cpp: IndexForX, IndexContainsX, BinarySearchIndexForX"]}
{"id": "C24", "title": "Repeating splines wrap into [0, EndX]", "statement": "IndexForXAllowingRepeat with repeat returns a final_x congruent to x modulo EndX() and inside (0, EndX()] whenever x is past the end, together with the segment index that contains it; without repeat x is unchanged.", "quantifier": "all splines with positive EndX, all x", "why_tests_cant": "continuum of x", "anchors": ["src/motive/math/compact_spline.cpp: IndexForXAllowingRepeat"]}
{"id": "C25", "title": "Splines interpolate their nodes", "statement": "Evaluating a spline at the x of a node whose neighbours have other x gives that node's y and, if there are two nodes, its derivative; between nodes, more than half an x_granularity away from them, the curve is the unique cubic Hermite interpolant of the two nodes; before the first node it is constant at the first y and after the last node constant at the last y; neighbouring segments join with equal value and derivative. (Within half an x_granularity of a node the cubic of the adjacent segment may be used: a witness is proved.)", "quantifier": "all splines and all x", "why_tests_cant": "continuum", "anchors": ["src/motive/math/compact_spline.cpp: CalculatedSlowly, CreateCubicInit", "src/motive/math/curve.cpp: CubicCurve::Init"]}
{"id": "C26", "title": "Bulk evaluation agrees with direct evaluation", "statement": "A BulkSplineEvaluator stepping a spline forwards by arbitrary non-negative increments reports at each step the x that the increments sum to, and the scaled and shifted value and derivative that direct evaluation of the spline gives there, whenever that x is more than half an x_granularity away from the nodes, or exactly on a node whose neighbours have other x (value only, at the first node) (for non-repeating, blend-free, non-negative-rate playback).", "quantifier": "all splines, all step sequences", "why_tests_cant": "unbounded frame histories", "anchors": ["src/motive/math/bulk_spline_evaluator.cpp: AdvanceFrame, InitCubic, EvaluateIndex", "include/motive/math/bulk_spline_evaluator.h"]}
{"id": "C27", "title": "Evaluator moves and copies are faithful", "statement": "Moving or copying evaluator indices makes the destination produce the same values, derivatives and future behaviour as the source had.", "quantifier": "all evaluator states and index ranges (including overlapping left shifts)", "why_tests_cant": "overlap patterns", "anchors": ["src/motive/math/bulk_spline_evaluator.cpp: MoveIndices, CopyIndices"]}
{"id": "C28", "title": "Spline memory layout", "statement": "Size(max_nodes) is a multiple of the alignment that holds the header and max_nodes nodes; splines in an array created in place never overlap and stay inside Size*num_splines bytes; ArraySize is enough for the splines it is asked for (false of the code because of alignment: a counterexample is proved; it holds when the node counts need no padding).", "quantifier": "all node counts and array sizes", "why_tests_cant": "unbounded sizes", "anchors": ["include/motive/math/compact_spline.h: Size, ArraySize, CreateArrayInPlace, NextAtIdx, CreateInPlaceMaxNodes"]}
{"id": "C29", "title": "Hermite initialisation", "statement": "CubicCurve(CubicInit) matches start and end y and derivative at x=0 and x=width; QuadraticCurve(QuadraticInitWithStartDerivative/...) matches its boundary data; ShiftLeft/ShiftRight/Scale/ReflectX compose as function composition.", "quantifier": "all real coefficients, widths > 0", "why_tests_cant": "continuum", "anchors": ["src/motive/math/curve.cpp", "include/motive/math/curve.h"]}
{"id": "C30", "title": "Quadratic roots are exact", "statement": "Roots() returns exactly the real roots of the quadratic, sorted; RootsInRange exactly those inside the range; RangesMatchingSign returns exactly the maximal sub-ranges where the curve has the requested sign.", "quantifier": "all coefficient triples and ranges", "why_tests_cant": "continuum, degenerate cases", "anchors": ["src/motive/math/curve.cpp: Roots, RangesMatchingSign, CalculateSecondDerivative..."]}
{"id": "C31", "title": "Uniform curvature test is exact", "statement": "UniformCurvature(range) returns true iff, on the whole range, the second derivative never goes below -epsilon or never goes above epsilon, where epsilon is the documented rounding tolerance Epsilon() (2^-22 of the largest coefficient); when it returns false the second derivative really changes sign inside the range.", "quantifier": "all cubics and ranges", "why_tests_cant": "continuum", "anchors": ["src/motive/math/curve.cpp: CubicCurve::UniformCurvature"]}
{"id": "C32", "title": "Dual cubic mid node", "statement": "CalculateDualCubicMidNode yields a mid point strictly inside the segment such that the two Hermite cubics through it match the end values/slopes, join with equal value and slope, and each has second derivative of one sign on its half.", "quantifier": "all cubic inits outside the degenerate set", "why_tests_cant": "continuum", "anchors": ["src/motive/math/dual_cubic.cpp: CalculateDualCubicMidNode"]}
{"id": "C33", "title": "Overshoot motivators respect their limits", "statement": "For every sequence of frames and targets, the value of an overshoot motivator stays inside its init range (modular: normalised range; linear: clamped), |velocity| never exceeds max_velocity, and the value moves at most max_delta per internal step.", "quantifier": "all inits, targets, frame sequences", "why_tests_cant": "unbounded frame histories", "anchors": ["src/motive/processor/overshoot_processor.cpp: CalculateVelocity, CalculateValue, AdvanceFrame", "include/motive/overshoot_init.h"]}
{"id": "C34", "title": "Overshoot AdvanceFrame terminates", "statement": "AdvanceFrame(dt) of the overshoot processor terminates for every dt when max_delta_time > 0, consuming exactly dt; (suspected) it never terminates with max_delta_time <= 0 and dt > 0.", "quantifier": "all dt and parameters", "why_tests_cant": "non-termination cannot be tested", "anchors": ["src/motive/processor/overshoot_processor.cpp: AdvanceFrame"]}
{"id": "C35", "title": "Overshoot settles", "statement": "Once the value is within the at-target threshold with small velocity, the motivator snaps to exactly its target with velocity 0 and stays there for every later frame until a new target is set.", "quantifier": "all later frame sequences", "why_tests_cant": "unbounded histories", "anchors": ["src/motive/processor/overshoot_processor.cpp", "include/motive/util.h: Settled"]}
{"id": "C36", "title": "Ease-in-ease-out curve reaches its target", "statement": "The generated two-piece quadratic starts at the current value and velocity, is continuous with continuous derivative at the junction, and ends at the target value with the target velocity.", "quantifier": "all starts, targets and shapes with valid bias", "why_tests_cant": "continuum", "anchors": ["src/motive/processor/ease_in_ease_out_processor.cpp", "src/motive/math/curve_util.cpp", "include/motive/math/curve_util.h"]}
{"id": "C37", "title": "Spring oscillates about its target with geometrically scaled peaks", "statement": "A spring given any start value and velocity (other than one exactly on the target moving down), target and shape starts there with that velocity; its peaks alternate sides of the target and each is bias times the previous in magnitude; it is differentiable everywhere, so continuous at the crossings and peaks, with the reported velocity as derivative; from rest at the typical distance it first reaches the target after the typical time. A spring motivator follows this curve however time is cut into frames, fails no assert, changes neither value nor velocity when retargeted, never strays further than its first peak if bias is at most 1, and if bias is below 1 comes to rest exactly on its target. The value and the reported difference always add up to the target; a spring that has just been initialised is at rest at its start value and target.", "quantifier": "all start states, targets, shapes with bias in [1/10000, 10000], iteration counts and frame sequences", "why_tests_cant": "unbounded iterations", "anchors": ["include/motive/math/curve_util.h: QuadraticSpring", "src/motive/math/curve_util.cpp", "src/motive/processor/spring_processor.cpp", "src/motive/processor/spring_data.h"]}
{"id": "C38", "title": "Const motivators never change", "statement": "A const motivator's value changes only through initialisation/SetTargets, never through AdvanceFrame.", "quantifier": "all histories", "why_tests_cant": "unbounded histories", "anchors": ["src/motive/processor/const_processor.cpp"]}
{"id": "C39", "title": "Simple processors keep data with handles", "statement": "Through any allocator history, the value read from a simple motivator is the one it was initialised/advanced with; freed slots are reset.", "quantifier": "all histories", "why_tests_cant": "unbounded histories", "anchors": ["include/motive/simple_processor_template.h"]}
{"id": "C40", "title": "Local spline ownership is linear", "statement": "At all times each spline object created by the spline processor is owned by exactly one of: one live slot, or the free pool; it is never shared by two motivators, never used after being returned to the pool; pool splines handed out are large enough for the request.", "quantifier": "all histories of SetTargets, SetSplines, Clone, Remove, AdvanceFrame", "why_tests_cant": "double ownership needs particular histories", "anchors": ["src/motive/processor/spline_processor.cpp: AllocateSpline, FreeSpline, SetTargets, SetSplines, CloneIndices, RemoveIndices, MoveIndices"]}
{"id": "C41", "title": "SetTarget produces a spline through the targets", "statement": "After SetTargets on a spline motivator the value is continuous (starts at the current value unless the first node has time 0), and reaches each target value/velocity at the target time (up to quantisation); modular targets are reached modulo the range along the requested direction.", "quantifier": "all targets, current states", "why_tests_cant": "continuum", "anchors": ["src/motive/processor/spline_processor.cpp: SetTarget", "include/motive/target.h"]}
{"id": "C42", "title": "Matrix motivator equals the product of its operations", "statement": "The result matrix of a matrix motivator is the left-to-right product of the elementary transforms of its operations, for every list of operations.", "quantifier": "all operation lists", "why_tests_cant": "unbounded lists", "anchors": ["src/motive/processor/matrix_data.h: UpdateResultMatrix", "src/motive/processor/matrix_processor.cpp", "include/motive/matrix_op.h"]}
{"id": "C43", "title": "Blending to a new op list is a faithful sorted merge", "statement": "After BlendToOps the motivator has exactly the union of the old and new operation ids, sorted; operations in the new list are driven to it, operations only in the old list are driven to their default value, new ones start from default.", "quantifier": "all sorted op lists", "why_tests_cant": "unbounded lists", "anchors": ["src/motive/processor/matrix_data.h: BlendToOps", "src/motive/processor/sqt_data.h: BlendToOps", "src/motive/matrix_op.cpp"]}
{"id": "C44", "title": "Quaternion sign alignment takes the short way", "statement": "For an SQT motivator with operations for all four quaternion components, BlendToOps first negates the current quaternion (values and velocities) exactly when its dot product with the start of the new animation is negative. This leaves the matrix and the scale unchanged and the dot product non-negative; if the components were at rest, the blend to a constant pose never leaves the hemisphere of either end and never passes through zero.", "quantifier": "all quaternions", "why_tests_cant": "continuum", "anchors": ["src/motive/processor/sqt_data.h: AlignQuaternionOps", "src/motive/util/keyframe_converter.cpp: GetQuaternionValue"]}
{"id": "C45", "title": "Global transforms compose along the bone hierarchy", "statement": "For every rig whose parents come before their children, each bone's global transform is the product of the local transforms along the path from its root to it, with the root motion bone treated as the identity and its local transform reported apart. A hierarchy with a child before its parent is rejected. This holds for a rig playing one animation after any history, and for a rig that blends several, where the local transforms are the averages.", "quantifier": "all hierarchies of any size/depth", "why_tests_cant": "unbounded trees", "anchors": ["src/motive/processor/rig_data.h: CalculateGlobalTransforms"]}
{"id": "C46", "title": "Blend weights are normalised", "statement": "When several animations are blended the weights are non-negative, sum to one and keep the proportions given, after any history in which SetWeights is not given more weights than there are animations; animations without a weight get zero. Blending identical poses (up to the sign of the quaternion) returns that pose, an animation with all the weight determines the pose, and if the first animation has some weight the average exists and lies between the poses.", "quantifier": "all weight lists with positive total", "why_tests_cant": "continuum", "anchors": ["src/motive/processor/rig_data.h: BlendToAnims, SetWeights, CalculateBlendedGlobalTransforms"]}
{"id": "C47", "title": "Anim table lookups are stable and deduplicated", "statement": "After any sequence of loads with at most 65535 different animations in total, Query(object, anim_idx) returns the first animation listed under the name at that position of the table, in this table up to that position or in an earlier load, or null if there is no name or nothing under that name could be loaded so far. Load reports success exactly when every named position has an animation. No file is loaded successfully twice, there is one animation for each loaded name, and QueryByName finds exactly the loaded names.", "quantifier": "all sequences of loads, all tables, all loaders", "why_tests_cant": "tables and histories are unbounded", "anchors": ["src/motive/anim_table.cpp: Load, the describers", "include/motive/anim_table.h: Query, QueryByName, NumUniqueAnims"]}
{"id": "C48", "title": "The defining animation covers every animation", "statement": "After the first load, for an object with at most 256 animations, the defining animation has the skeleton of the animation with the most bones. For each bone it contains exactly the union of the operation ids used by the object's animations that have the bone, sorted by id and without duplicates, with the types that the animations use. An operation is constant in it exactly if all animations give it the same constant, between 0 and 1. It exists unless two animations use one id of a bone for different types of operation.", "quantifier": "all sets of animations", "why_tests_cant": "unbounded lists", "anchors": ["src/motive/anim_table.cpp: CreateDefiningAnim, FindCompleteRig, GatherObjectAnims"]}
{"id": "C49", "title": "Constant-speed curves have monotone times", "statement": "CalculateConstSpeedCurveFromPositions assigns nondecreasing times that start at 0 and end at the total time; the time between neighbouring positions is proportional to their distance. Every derivative points along the line between two neighbours and has the constant speed, unless the two coincide. It terminates for every list of positions that does not have exactly three elements, provided the positions are not all the same.", "quantifier": "all position lists", "why_tests_cant": "unbounded lists", "anchors": ["include/motive/math/spline_util.h"]}
{"id": "C50", "title": "Keyframe conversion preserves keyframes", "statement": "Converting keyframes that are at least 1/65535 of the last time apart yields one spline per channel in exactly GetRequiredBufferSize bytes. The spline has the value of each keyframe within half a grain of its time, up to 1/65535 of the value range; keeps the first and last value outside; and between keyframes is the line (up to slope rounding), the constant, or the Hermite cubic that the interpolation type asks for. Quaternion keyframes are followed up to sign in the order W, X, Y, Z, and with linear interpolation consecutive quaternions have a non-negative dot product. Constant operations are added exactly for values that differ from the default.", "quantifier": "all keyframe lists, interpolation types, channel counts and quaternion orders", "why_tests_cant": "unbounded lists", "anchors": ["src/motive/util/keyframe_converter.cpp"]}
{"id": "C51", "title": "Pipeline pruning keeps the curve", "statement": "AnimData::AddCurve terminates for every non-empty array of samples and appends nodes at increasing times from time_start to time_end, the first and last with the value and slope of the first and last sample; if samples are a whole number of ticks apart then the curve through the nodes passes every sample within the tolerance of the operation. PruneNodes only removes nodes: the result is a subsequence of the nodes that keeps the first and the last (only the first if the two that remain are flat within the tolerances), and among the kept nodes there are some, from the first to the last, such that each node between two of them that follow each other is within the tolerances of the cubic between these two.", "quantifier": "all curves", "why_tests_cant": "unbounded curves", "anchors": ["src/anim_pipeline/anim_data.cpp: PruneNodes, AddCurve"]}
{"id": "C52", "title": "Channel collapsing preserves the matrix", "statement": "For the channels of a bone that are constant or, if of the same kind, cover the same time (with at most two nodes at one time, as at a corner), with rotations, translations and at most one scale of each kind, and with ids that ascend except between translations: PruneChannels (collapse equal XYZ scales, sum channels of the same kind, drop default constants, sort by id) succeeds, and at every time the resulting channels represent the same matrix and scale as the original operations with their own values at that time up to the tolerance of their kind. Summing two channels is exact at every time, between nodes too.", "quantifier": "all lists of channels that meet the conditions, all tolerances, all times", "why_tests_cant": "unbounded lists", "anchors": ["src/anim_pipeline/anim_data.cpp: PruneChannels, SummableChannel, SumChannels"]}
{"id": "C53", "title": "Float exponent helpers", "statement": "ExponentAsInt is floor(log2|f|) for every normal float and the documented special values otherwise; ExponentFromInt inverts it on the whole exponent range; ReciprocalExponent, SqrtReciprocalExponent and MaxPowerOf2Scale return powers of two satisfying their documented bounds, for every finite input.", "quantifier": "all 2^32 bit patterns", "why_tests_cant": "2^32 inputs times all arguments", "anchors": ["include/motive/math/float.h", "src/motive/math/float.cpp"]}
{"id": "C54", "title": "Targets are well-formed", "statement": "MotiveTarget1f keeps strictly increasing node times and at most its capacity; ValueRange covers the start value and all node values (minimal), EndTime is the last node's time.", "quantifier": "all targets", "why_tests_cant": "continuum", "anchors": ["include/motive/target.h"]}
{"id": "C55", "title": "Reductions over arrays of ranges pick the extreme element", "statement": "IndexOfLongest returns the first index whose valid range has maximal length; IndexOfShortest the first of minimal length; ClampToClosest returns a point of one of the ranges that is nearest to x among all points of all the ranges (x itself for an empty array); Covers returns the smallest range containing every value.", "quantifier": "every array length and every array contents", "why_tests_cant": "arrays are unbounded; ties, ordering and sentinel start values (-1, infinity) interact", "anchors": ["include/motive/math/range.h: IndexOfLongest, IndexOfShortest, ClampToClosest, CoversLambda, Covers"]}
{"id": "C56", "title": "Angles, vectors and rotation matrices agree", "statement": "In each of the six vector systems: the vector of an angle has unit length; converting any positive multiple of it back gives the same angle; converting any vector gives a valid angle pointing along the vector's projection on the plane; the rotation matrix of angle a maps the vector of b to the vector of a+b and fixes the up axis; LatitudeAndLongitudeToUnitSphere returns a unit vector with height sin(latitude) along the up axis.", "quantifier": "every valid angle, every vector, every system", "why_tests_cant": "a continuum of angles and sign conventions in six systems", "anchors": ["include/motive/math/angle.h: ToVectorSystem, FromVectorSystem, ToRotationMatrix", "src/motive/math/angle.cpp: LatitudeAndLongitudeToUnitSphere"]}
{"id": "C57", "title": "Blending to a new spline is smooth", "statement": "When a playing index is given a new spline with a positive blend time, its value does not jump (it is unchanged, or congruent for modular values, which take the shorter way), its derivative does not jump at the start or the end of the blend, it reaches the spline exactly at the end of the blend time and follows it from then on. (The derivative part is false of the code unless the playback rate and scale are 1, and the shorter-way part is false of modular ranges that are not symmetric.)", "quantifier": "all splines, states, playback parameters and frame sequences", "why_tests_cant": "continuum of states and unbounded frame histories", "anchors": ["src/motive/math/bulk_spline_evaluator.cpp: CalculateBlendInit, BlendToSpline, SetSplines, AdvanceFrame"]}
{"id": "C58", "title": "Repositioning equals restarting", "statement": "SetXs(x) leaves an index in exactly the state that setting its spline again with start_x = x and unchanged playback parameters would, for every x more than half an x_granularity from the nodes.", "quantifier": "all evaluator states, splines and x", "why_tests_cant": "hidden state (cached segment index) and continuum of x", "anchors": ["src/motive/math/bulk_spline_evaluator.cpp: SetXs, InitCubic, JumpToSpline", "include/motive/math/bulk_spline_evaluator.h: SetXs"]}
{"id": "C59", "title": "Ease motivator follows its curve for any frame times and parks on the target", "statement": "After a target is set whose curve arrives with a velocity of at most 1e-6, for any sequence of frame times the value and velocity are those of the curve at the total elapsed time until its end, and from then on the value is exactly the end value, the velocity 0 and the difference 0; the reported target value is the end value throughout. If the curve arrives with a larger velocity and the bias is strictly between 0 and 1, the motivator overshoots, brakes, turns around and comes to rest exactly on the target after a time that is given by the arrival velocity and the two accelerations; it reports the same target value all the while, and the arrival velocity as target velocity until it has come to rest. This needs frames that are no longer than the settling time; one frame past all of it puts the value away from the target by half the acceleration times the square of the excess. From rest over the typical distance with bias in [1/10000, 1) arrival is at the typical time.", "quantifier": "all states, targets, shapes and frame sequences", "why_tests_cant": "unbounded frame sequences over a continuum of states", "anchors": ["src/motive/processor/ease_in_ease_out_processor.cpp", "src/motive/processor/ease_in_ease_out_data.h"]}
{"id": "C60", "title": "The difference of an overshoot motivator is its own", "statement": "For an overshoot motivator at any index, Differences returns, per dimension, the target minus the current value of that motivator (modular: the shortest way round), whatever other motivators exist.", "quantifier": "all indices, all numbers of motivators, all values", "why_tests_cant": "a test with one motivator cannot see an index mix-up", "anchors": ["src/motive/processor/overshoot_processor.cpp: Differences, Difference"]}
{"id": "C61", "title": "Start values of simple motivators", "statement": "Initialising a const or ease motivator of any dimension with start values (and optionally start derivatives; default none) succeeds, and every dimension then reports its own start value.", "quantifier": "all dimensions, all start values, with and without derivatives", "why_tests_cant": "the default argument and all dimensions must be covered", "anchors": ["src/motive/processor/const_data.h", "src/motive/processor/ease_in_ease_out_data.h", "include/motive/simple_init_template.h: SimpleInit", "include/motive/const_init.h: ConstInit"]}
{"id": "C62", "title": "Lengthening a range", "statement": "Lengthen(p) keeps the middle of the range and multiplies its length by 1+p, so it is longer for every p > 0.", "quantifier": "all ranges and all p", "why_tests_cant": "continuum", "anchors": ["include/motive/math/range.h: Lengthen"]}
{"id": "C63", "title": "Indices of an evaluator are independent", "statement": "Setting an array of splines at a range of indices gives each index of the range its own spline of the array and leaves all other indices unchanged; a frame advances each index exactly as if it were alone.", "quantifier": "all evaluators, ranges, splines and frame lengths", "why_tests_cant": "all combinations of indices and hidden per-index state", "anchors": ["src/motive/math/bulk_spline_evaluator.cpp: SetSplines, AdvanceFrame"]}
{"id": "C64", "title": "Translation, rotation and scale of a matrix motivator", "statement": "If no operation of a matrix motivator rotates after one that scales the axes differently and no scale is zero, then the rotation that the motivator reports is a rotation, and scaling, rotating and translating by what it reports is the same as applying its matrix.", "quantifier": "all operation lists and values", "why_tests_cant": "Depends on the order of arbitrarily many operations and on all values.", "anchors": ["src/motive/processor/matrix_data.h: result_rotation, result_translation, result_scale", "src/motive/processor/matrix_processor.cpp: Value"]}
{"id": "C65", "title": "Result of an SQT motivator", "statement": "The matrix of an SQT motivator scales, rotates by the normalised quaternion and translates, where each component is the value of the last operation for it or its default. When a blend to a constant pose is over, the result is that of the new operations alone, whatever the motivator did before, if no old operation sets a component that the new list sets with another operation.", "quantifier": "all operation lists, values and blend times", "why_tests_cant": "Ranges over all histories before the blend and all operation lists.", "anchors": ["src/motive/processor/sqt_data.h: UpdateResultMatrix, BlendToOps"]}
{"id": "C66", "title": "Time remaining of a rig", "statement": "The time remaining of a matrix motivator is the longest of its operations, and never negative. Once a rig plays animations, ChildTimeRemaining of each is the longest time remaining of its bones, and TimeRemaining is the longest of its children, unless the rig is endless. Before the first animation TimeRemaining is 0.", "quantifier": "all rigs, bone motivators and histories of BlendToAnim, BlendToAnims, SetWeights, playback changes and frames", "why_tests_cant": "unbounded histories and sizes", "anchors": ["src/motive/processor/rig_data.h: TimeRemaining, ChildTimeRemaining, BlendToAnim", "src/motive/processor/matrix_data.h: TimeRemaining", "include/motive/matrix_op.h: TimeRemaining"]}
{"id": "C67", "title": "Each animation of a blend drives its own bones", "statement": "BlendToAnim and BlendToAnims accept animations of the rig's hierarchy with any valid weights, and blend every bone of every animation to the operations that the animation has for it: from the state of the animation at the same position before, from a copy of the first if there was one before, or from scratch.", "quantifier": "all rigs, animations, playbacks and histories", "why_tests_cant": "unbounded numbers of bones and animations, all histories", "anchors": ["src/motive/processor/rig_data.h: BlendToAnim, BlendToAnims"]}
{"id": "C68", "title": "Times of an imported animation", "statement": "Unless the start time is to be preserved, importing an animation moves all of its channels by the same time, so that the first channel that is not constant starts at zero; and unless the end times may be staggered, it extends all channels that are not constant to the latest end. Names, parents, operations and constant channels are unchanged, and every channel has at every time the value that it had before at the time from which it was moved.", "quantifier": "all animations: any number of bones, channels and nodes, within the range of the integer times", "why_tests_cant": "unbounded numbers of bones, channels and nodes; all real times", "anchors": ["src/anim_pipeline/anim_data.cpp: ShiftTime, ExtendChannelsToTime, MinAnimatedTime, MaxAnimatedTime", "src/anim_pipeline/anim_pipeline.cpp: RunAnimPipeline"]}
{"id": "C69", "title": "Which animations repeat", "statement": "An exported animation of at most 255 bones is marked as repeating if the user always wants it to repeat, or if they want that when possible and the end of every channel has the value and slope of its start within the tolerances. A channel that passes this check does not jump by more than its tolerance when the animation starts again.", "quantifier": "all animations, tolerances and preferences", "why_tests_cant": "unbounded numbers of bones, channels and nodes", "anchors": ["src/anim_pipeline/anim_data.cpp: Repeat, FirstNonRepeatingBone"]}
{"id": "C70", "title": "An exported curve is the imported curve up to rounding", "statement": "Converting the keys of a channel to a compact spline succeeds for every curve with 2 to 65534 keys at non-decreasing non-negative times, no three at one time, whose keys at different times lie at least one grain apart. The spline starts and ends when the channel does, its range is the least range that holds all values, every key is stored within half a grain of its time, one range step (a 65535th of the range) of its value and one angle step of its slope, and evaluating the spline between two stored keys differs from the cubic through the original keys by no more than a bound proportional to those steps. A channel of 65536 keys makes the conversion fail.", "quantifier": "every list of keys (any number, times, values, slopes), every time at which the spline is evaluated", "why_tests_cant": "The rounding error depends on all keys at once and on where in a segment the curve is evaluated; a test compares a few samples of a few curves.", "anchors": ["src/anim_pipeline/flat_anim.cpp: FlatAnim::CreateCompactSpline, FlatAnim::SplineYRange", "src/motive/math/compact_spline.cpp: CompactSpline::AddNode, RecommendXGranularity"]}
{"id": "C71", "title": "An exported animation reads back as the same animation", "statement": "For every skeleton of at most 254 bones in which each bone follows its parent, and whose channels are constants or curves that can be exported (C70), the file that the pipeline writes is read without failure as an animation with the same name, the same bones (names without their name spaces), the same hierarchy, the same channels in the same order with the same ids, kinds, constants and splines, the repeat flag of C69, and as end time the end of the last channel, or the greatest time if it repeats. More than 254 bones are refused. With root_bones_only each animated bone becomes its own animation named after its index; those of bones without a parent read back, but those of bones below an unanimated parent fail the reader's assertion. Animations with float splines cannot be read at all.", "quantifier": "every hierarchy, every list of channels per bone, every id, every export option", "why_tests_cant": "It must hold for every combination of bones, channels and options; the ids pass through a signed byte and the parents through an unsigned one, and a sample of rigs does not show the values at which they differ.", "anchors": ["src/anim_pipeline/flat_anim.cpp: FlatAnim::CreateFlatBuffer, CreateRigAnimFbFromBoneRange, CreateSplineFlatBuffer, BoneBaseName", "src/motive/io/flatbuffers.cpp: RigAnimFromFlatBuffers, MatrixAnimFromFlatBuffers, EndTime", "src/motive/rig_anim.cpp: RigAnim::Init, RigAnim::InitMatrixAnim", "src/anim_pipeline/anim_data.cpp: BoneParent", "schemas/anim.fbs"]}
{"id": "C72", "title": "Querying the splines and constants of a bone", "statement": "RigAnim::GetSplinesAndConstants returns, for every bone and every list of operation kinds, for each kind the constant or the spline of the first operation of the bone that drives it (an operation of that kind, or a uniform scale if a scale is asked for), and the value that changes nothing (one for scales and quaternion w, zero otherwise) if no operation drives it. For an animation written by the pipeline these are the constants of its channels. A bone index beyond the last fails an assertion. An operation of the invalid kind, however, answers every question that is not about a scale.", "quantifier": "every animation, bone index, list of kinds asked for, order of operations", "why_tests_cant": "The answer depends on the order of all operations of the bone and on every pair of kinds; a test fixes one bone.", "anchors": ["src/motive/rig_anim.cpp: RigAnim::GetSplinesAndConstants", "include/motive/rig_anim.h", "include/motive/matrix_op.h: OperationDefaultValue, ScaleOp"]}
{"id": "C73", "title": "Cloning a matrix motivator", "statement": "Cloning a matrix (or sqt) motivator with CloneFrom succeeds in every state and changes no other motivator. The clone reports the matrix of the source; its operations have the ids, kinds and constants of the source, and each child motivator that can be cloned is copied with its values. If all child motivators can be cloned, the clone and the source report the same matrix after any later calls that mention neither, and calls to the source do not affect the clone. A child motivator of a kind that does not support cloning (spring, ease, overshoot, constant) is lost: the clone silently falls back to the constant of the operation with the next frame.", "quantifier": "every history of calls, matrix motivator, kind of child motivators, and every later history", "why_tests_cant": "The claim is about all later histories of both motivators and about memory shared across processors.", "anchors": ["include/motive/matrix_op.h: MatrixOperation::operator=", "src/motive/processor/matrix_processor.cpp: CloneIndices", "src/motive/processor/sqt_processor.cpp: CloneIndices", "src/motive/processor.cpp: CloneMotivator"]}
{"id": "C74", "title": "Import of the hierarchy of a scene", "statement": "Importing the nodes of a scene creates exactly one bone for each node that has skin itself or below itself, in the order of a depth-first walk, with the node's name; a bone's parent is the bone of its parent node (-1 for children of the root) and always precedes it. Nodes without skin at or below them get no bone. The channels of each bone are those gathered and pruned for its own node, independently of the other nodes; with root_bones_only the walk stops below a bone that has channels, and the bones it does not reach have none.", "quantifier": "every tree of nodes, with any skin, any channels per node, with or without root_bones_only", "why_tests_cant": "Trees are unbounded in depth and width, and the bone of one node is reached through state shared by the whole recursion.", "anchors": ["src/anim_pipeline/anim_pipeline.cpp: FbxAnimParser::GatherBones, MarkBoneNodes, GatherBonesRecursive, GatherFlatAnim, GatherFlatAnimRecursive", "src/anim_pipeline/flat_anim.cpp: AllocBone, ResetCurBone, PruneChannels"]}
{"id": "C77", "title": "Pruning a bone twice is harmless", "statement": "Pruning the channels of a bone that are already pruned changes nothing, for channels as the importer creates them (translations may be summed; no two scales of one axis). So it does not matter that the importer prunes a bone after each of its nodes. After pruning, the channels' ids are strictly ascending. Without the condition on scales, pruning again can collapse channels further.", "quantifier": "every list of channels that meets the conditions, every tolerance and sorting function", "why_tests_cant": "The number and the kinds of channels, and the values of their curves, are unbounded.", "anchors": ["src/anim_pipeline/flat_anim.cpp: PruneChannels, SumChannels, UniformScaleChannels, SummableChannel"]}
{"id": "C75", "title": "Import of the transform of a node", "statement": "If the animated properties of a node have three channels and the curves imported for them are well formed, the importer outputs channels that represent, at every time, the node's transform T*Roff*Rp*Rpre*R*Rpost^-1*Rp^-1*Soff*Sp*S*Sp^-1, with the value of each axis of each property within tolerance of what was imported for it (the property's value in radians or units if it is not animated). Pruning the channels again changes nothing. The same holds for every bone of a scene. This requires the rotation order XYZ, ZYX or SphericXYZ: for XZY, YZX, YXZ and ZXY the importer applies the local and pre-rotations in a wrong order (the post-rotation in the right one), so that a rotation and its inverse do not cancel.", "quantifier": "every node, with any values and curves of its properties, rotation order, tolerances, time; every scene", "why_tests_cant": "The claim is about all times, all combinations of skipped, constant and animated channels, and all values.", "anchors": ["src/anim_pipeline/anim_pipeline.cpp: GatherFlatAnimForNode, ChannelOrder, kRotationOrderToChannelOrder, FbxToFlatValue, InvertValue, AnimConst"]}
{"id": "C76", "title": "Import of an animation curve", "statement": "A curve with keys inside the take, at least 15 milliseconds apart, is imported without failing: as a constant, or as nodes in order of time from the first key to the last, at most two at one time, with a node at each key before redundant nodes are removed; such curves meet the conditions of C75. A curve imported as a constant stays within tolerance of it, if the slope before its last key is flat. That slope is not looked at, though: a curve that rises to any height before its last key is imported as constant. A curve that is not constant whose keys are all after the take fails an assertion. A curve that extends beyond the take is cut to it: every imported node lies in the take and has a value that the curve has there, and if the keys reach from the start of the take to its end, so do the nodes.", "quantifier": "every curve, conversion of times, time span, tolerances", "why_tests_cant": "The number of keys, their times, values and slopes are unbounded.", "anchors": ["src/anim_pipeline/anim_pipeline.cpp: AnimConst, GatherFlatAnimCurve, FbxToFlatDerivative", "src/anim_pipeline/flat_anim.cpp: AddCurve, PruneNodes"]}
{"id": "C78", "title": "One frame brings every motivator to the same time", "statement": "In whatever order the types of motivators were first used, and after any calls, one MotiveEngine::AdvanceFrame updates every dimension of every valid motivator exactly once, and composite motivators never show a mixture of two frames: a matrix or sqt motivator is recomputed from the values that its one-dimensional motivators have after this frame, and a rig motivator from the matrices that the motivators of its bones report after this frame. So after the frame the global transform of a bone is the product, along the path to it, of the operations of the bones for the current values of the motivators that drive them. The frame succeeds if the updates of the single slots do.", "quantifier": "every history of first uses of the eight types and of calls on motivators and frames, every update of the slots, every rig that plays one animation with matrix bones", "why_tests_cant": "The processors can be created in any of 8! orders, interleaved with any calls; a stale value shows up only for particular orders, and only by one frame.", "anchors": ["src/motive/engine.cpp: AdvanceFrame, Processor", "src/motive/processor/*.cpp: Priority, AdvanceFrame", "src/motive/processor/matrix_data.h: UpdateResultMatrix", "src/motive/processor/rig_data.h: UpdateGlobalTransforms"]}
{"id": "C79", "title": "The parts of a matrix live and die with it", "statement": "A matrix or sqt motivator behaves as if it contained its operations by value. After every history of calls on any number of matrices, of motivators that stand alone and of processors (initialise again, change or insert operations, move, clone, invalidate, frames, defragmentation, reallocation, destruction of processors in any order) each matrix has the operations, with the values, that the calls on it ask for. No such call fails. Every valid motivator stands alone or is the child of exactly one operation of one matrix; invalidating a matrix invalidates its children and nothing else; when no matrix is left no child is left. No call on one matrix changes another or a motivator that stands alone; cloning does not change the original.", "quantifier": "every history of calls, every number of matrices, dimensions and operations, every choice of free addresses by the allocator, every order of destruction of processors", "why_tests_cant": "Children are created, moved and destroyed by constructors and destructors that C++ runs inside containers; a leaked or shared child shows up only after particular sequences of calls, and the histories are unbounded.", "anchors": ["src/motive/processor/matrix_data.h: MatrixData, Reset, Initialize, BlendToOps", "include/motive/matrix_op.h: MatrixOperation", "src/motive/processor/matrix_processor.cpp: RemoveIndices, CloneIndices, MoveIndices, SetNumIndices", "src/motive/processor/sqt_processor.cpp", "include/motive/motivator.h: CloneFrom, Invalidate"]}
{"id": "C80", "title": "What growing storage does to the parts of matrices", "statement": "When the storage of matrices or sqts grows and std::vector copies the slots into the new block, which it does when moving a slot may throw, the matrices are as before exactly if each of their children is driven by a processor that supports cloning. Any other child (spring, ease-in-ease-out, overshoot, constant) is lost, and its operation is left with its constant.", "quantifier": "every history of calls, every processor of matrices, every placement of the copies", "why_tests_cant": "The copies are made by the standard library at moments that depend on its growth policy and on the history of allocations.", "anchors": ["src/motive/processor/matrix_processor.cpp: SetNumIndices", "include/motive/matrix_op.h: MatrixOperation(const MatrixOperation&)", "src/motive/processor.cpp: CloneMotivator"]}
{"id": "C81", "title": "Sums of angles in single precision", "statement": "In single precision, with any rounding to nearest, the sum and the difference of two valid angles never fail an assertion and are valid angles (a float greater than -pi and at most pi); they are congruent modulo a full turn to the exact sum or difference up to the error of one rounded addition, 2^-22. Addition commutes, zero is neutral, an angle minus itself is zero, adding the negated angle gives zero, negation is its own inverse, the absolute value is a valid angle. With IEEE rounding a difference is zero only for equal angles. Addition is not associative.", "quantifier": "every pair of valid float angles and every rounding to nearest (any treatment of ties unless IEEE is said)", "why_tests_cant": "There are 2^61 pairs of valid angles; what fails, fails next to the ends of the interval and depends on the rounding of the constants.", "anchors": ["include/motive/math/angle.h: Angle, operator+, operator-, ModWithinThreePi, IsAngleInRange, kPi, kTwoPi, kThreePi, kMinUniqueAngle"]}
{"id": "C82", "title": "Wrapping, scaling and clamping of angles in single precision", "statement": "In single precision an angle can be made from any number of radians up to 2^24 in magnitude or the corresponding number of degrees, and scaled or divided as long as the result stays below that: no assertion fails, the result is a valid angle, congruent to the argument up to an error proportional to its magnitude (2^(j-24)+2^-20 for arguments up to 2^j). Clamping an angle to a distance from a center succeeds, gives an angle within that distance of the center up to 2^-22, and keeps an angle that is within the distance up to 2^-21. These are not exact: the angle 2^-30 becomes zero when it is made from radians, multiplied by one, or clamped to the whole circle around 1; and for 1e9 radians the assertion fails.", "quantifier": "every float argument up to 2^24, every valid angle, every factor and divisor, intermediate results in float or double, every rounding to nearest", "why_tests_cant": "The error bound and validity concern all floats; the failures lie at particular magnitudes.", "anchors": ["include/motive/math/angle.h: WrapAngle, FromRadians, operator*, operator/, Clamp"]}
{"id": "C83", "title": "Modular ranges in single precision", "statement": "In single precision, for a range from -a (excluded) to a (included): normalising a value within one length of the range is exact and leaves values of the range unchanged; normalising a wild value of up to 2^20 half-lengths succeeds and is congruent up to 2^-24 of the magnitudes; the close normalisation also succeeds and leaves values of the range unchanged. The close, far, positive and negative differences of two values of the range lie in their intervals and are congruent. Interpolation and percentage are exact at both ends of any range. For a range that is not symmetric normalisation can fail: in (-3, 1-2^-24] the value 1, within one length, fails the assertion, and the close normalisation returns -3, which is outside.", "quantifier": "every half-length, every value, every rounding to nearest", "why_tests_cant": "Values next to the ends of the range and lengths that round are where it matters; the domain is all pairs of floats.", "anchors": ["include/motive/math/range.h: Normalize, NormalizeWildValue, NormalizeCloseValue, ModDiffClose, ModDiffFar, ModDiffPositive, ModDiffNegative, Lerp, Percent"]}
{"id": "C84", "title": "Quantised spline nodes in single precision", "statement": "In single precision, with the recommended granularity for the length of a spline, every x from 0 to that length is accepted and is read back within 1/2+1/64 of a granularity; order is kept. Every y of a non-empty range is accepted, is stored in 16 bits without undefined behaviour, and is read back within one rung below it, up to 2^-21 of the range and its bounds; both ends of the range are stored and read back exactly; the order of the stored rungs is that of the values. The order of the values read back is not: in the range from 771 to 771.1875 two keys are read back swapped.", "quantifier": "every length of a spline, every range with float bounds, every float in it, every rounding to nearest", "why_tests_cant": "Whether x/granularity can round above the largest grain, or the end of a range below the last rung, depends on the rounding of a quotient for each of the 2^32 lengths.", "anchors": ["include/motive/math/compact_spline_node.h: QuantizeX, CompactX, CompactY, X, Y", "src/motive/math/compact_spline.cpp: RecommendXGranularity, kYScale", "include/motive/math/range.h: Lerp, PercentClamped"]}
{"id": "C85", "title": "Clocks in single precision", "statement": "The clock of a spring or ease curve shows the sum of the frames exactly until it reaches 2^24 milliseconds (4.66 hours), so until then it does not matter how a time is divided into frames. After that it drifts by at most one unit of its largest value per frame. Time never runs backwards, also in splines that are played forwards. Time can stop: from a reading of 2^k milliseconds on, any number of frames shorter than 2^(k-24) milliseconds (for splines: after scaling with the playback rate) leaves it unchanged; with IEEE rounding and frames of one millisecond the clock stops at 2^24.", "quantifier": "every list of frames, every playback rate, every rounding to nearest", "why_tests_cant": "The effects appear after hours of frames, and concern every division of time into frames.", "anchors": ["src/motive/processor/spring_processor.cpp: AdvanceFrame", "src/motive/processor/ease_in_ease_out_processor.cpp: AdvanceFrame", "src/motive/math/bulk_spline_evaluator.cpp: UpdateCubicXs_OneStep, UpdateCubicXsAndGetMask_C"]}
{"id": "C86", "title": "Finding the splines that have ended", "statement": "Advancing n splines in bulk by a step adds step times playback rate to the position of each spline, changes nothing else, and reports exactly the splines that have passed the end of their segment, in order. The one-pass function does so for every n. The two-pass function, which keeps its mask of bytes in the second half of the buffer for the reported indices, does so when fewer than n/2 splines end and n is at most 65536. It does not otherwise: when all of the splines end some are missed, a single spline is never reported, and the index 65536 is reported as 0.", "quantifier": "every number of splines, every positions, ends, playback rates and step, every previous content of the scratch buffer", "why_tests_cant": "Whether an entry of the mask is overwritten before it is read depends on how many splines end in the same frame, and where they lie; the tests use few splines.", "anchors": ["src/motive/math/bulk_spline_evaluator.cpp: UpdateCubicXs_OneStep, UpdateCubicXs_TwoSteps, UpdateCubicXsAndGetMask_C, ConvertMaskToIndices"]}
{"id": "C87", "title": "The command line of the animation pipeline", "statement": "A command line whose last parameter is a file name, preceded by options of the usage message with allowed values and not both --repeat and --norepeat, is accepted and sets exactly what the options say; options that change different settings may come in any order and under either of their names. A command line that is not of this form is refused, as long as it does not use -a, --axes, -u or --unit. With one of these it may be accepted in spite of errors before it.", "quantifier": "every list of strings, every behaviour of the conversions from strings", "why_tests_cant": "The claim ranges over all lists of strings; there is no test of the parser.", "anchors": ["src/anim_pipeline/anim_pipeline_main.cpp: ParseAnimPipelineArgs, LogUsage", "src/anim_pipeline/anim_pipeline.h: AnimPipelineArgs"]}
{"id": "C88", "title": "Rigs are neither leaked nor deleted twice", "statement": "In every history of initialising, invalidating, moving and cloning rig motivators, processing frames and destroying rig processors, no internal rig object is deleted twice and no null or dangling pointer is followed. Every valid motivator has its own objects, one per dimension, and keeps them in order through frames and defragmentation and while other motivators are changed. They are deleted when the motivator is invalidated or initialised again, or its processor destroyed, and at no other time, so that nothing is left on the heap when no motivator is valid.", "quantifier": "every sequence of calls with any number of processors, motivators and dimensions, every choice of addresses by new", "why_tests_cant": "Whether an object is leaked or deleted twice depends on the history: which slots were freed, moved by defragmentation and reused before.", "anchors": ["src/motive/processor/rig_processor.cpp: MotiveRigProcessor (InitializeIndices, RemoveIndices, MoveIndices, SetNumIndices, AdvanceFrame, ~MotiveRigProcessor)", "src/motive/processor.cpp: RemoveMotivator, TransferMotivator", "include/motive/motivator.h: Motivator"]}
{"id": "C89", "title": "A motivator of N dimensions behaves as N motivators of one dimension", "statement": "Take any program that uses motivators of several dimensions (initialise, set, clone, move, invalidate, frames, destruction of processors) and replace each by one-dimensional motivators, one per dimension, treated alike. The second program runs whenever the first does, fails whenever a legal call of the first fails, and element k of every array read from a motivator (values, velocities, directions, targets) is what the k-th of the one-dimensional motivators gives. TargetTime is the latest of their target times.", "quantifier": "every sequence of calls, any number of motivators and dimensions, any behaviour of a slot under setters and frames", "why_tests_cant": "Which slots a motivator has depends on the allocations, removals and compactions before; the claim compares two programs whose layouts in memory differ throughout.", "anchors": ["include/motive/vector_motivator.h: MotivatorNf, MotivatorXfTemplate, InitializeWithTargetShape", "include/motive/vector_processor.h: MotiveProcessorNf", "include/motive/simple_processor_template.h: GatherFloats, TargetTime"]}
{"id": "C90", "title": "What a motivator reads depends on its own life only", "statement": "After any program, follow a valid motivator back through moves and clones to the call that initialised it: what is read from each of its dimensions is what the value put there becomes under the arguments of that dimension in the setters, and under the frames of its processor, met on the way, and nothing else. Hence a guarantee about one value under setters and frames holds for every motivator of any dimensions in every program: overshoot motivators within their limits stay there and no legal call on them fails, spring and ease motivators arrive at their targets.", "quantifier": "every sequence of calls on any number of motivators of any dimensions and processors; every behaviour of a slot under setters and frames", "why_tests_cant": "Other motivators, removals and compactions between any two calls decide where the values are stored; no finite set of programs covers them.", "anchors": ["include/motive/motivator.h: Motivator", "include/motive/vector_motivator.h: MotivatorNf", "src/motive/processor.cpp: MotiveProcessor", "src/motive/processor/overshoot_processor.cpp: OvershootMotiveProcessor", "src/motive/processor/spring_processor.cpp: SpringMotiveProcessor", "src/motive/processor/ease_in_ease_out_processor.cpp: EaseInEaseOutMotiveProcessor"]}
{"id": "C91", "title": "A spline motivator in any program plays its spline", "statement": "In any program, follow a dimension of a spline motivator back to the call that told it to play a spline. If since then only time has passed and its position and playback rate have been set (forwards), then its spline time is the start position carried along by the frames at the rates set (up to whole turns when it repeats), and its value and velocity are the spline's there, scaled and shifted. Making a spline repeat after it has ended has no effect. Values of removed motivators never fail in frames.", "quantifier": "every program of calls on any number of motivators of any dimensions; every well-formed spline, playback and sequence of frames and rate and time setters", "why_tests_cant": "The value is computed from cached cubics at an index that other motivators' creation, removal and compaction move; no finite set of programs and splines covers the interleavings.", "anchors": ["src/motive/processor/spline_processor.cpp: SplineMotiveProcessor", "src/motive/math/bulk_spline_evaluator.cpp: BulkSplineEvaluator", "include/motive/vector_motivator.h: SetSpline, SplineTime", "include/motive/rig_motivator.h: SetRepeating"]}
{"id": "C92", "title": "Overshoot motivators in single precision", "statement": "With every operation rounded to float: overshoot motivators with a sensible configuration whose values and targets are floats inside the range never leave it, never exceed the greatest velocity, and no legal call fails, in any program; one that is on its target stays there, and one within the thresholds is on it after the next frame. A step as long as a modular range can fail although it cannot in exact arithmetic, and a slow motivator far from 0 never moves.", "quantifier": "every rounding to nearest, every configuration, every program of calls with any frame times", "why_tests_cant": "Whether rounding carries a value past a limit depends on the last bits of all numbers involved.", "anchors": ["src/motive/processor/overshoot_processor.cpp: CalculateVelocity, CalculateValue, AdvanceFrame", "include/motive/overshoot_init.h: OvershootInit", "include/motive/math/range.h: Normalize, Clamp"]}
{"id": "C93", "title": "What a run of the animation pipeline leaves on the disk", "statement": "The exit status of the pipeline is 0 exactly if the scene loads, an animation is made from it, and the output directory and file can be created (or only debugging was asked for and the scene loads). A run that fails, or is for debugging, never touches the disk. A run that succeeds and whose bytes the disk takes leaves the whole file, under the name asked for with the extension of its kind, and it reads as the animation of the scene; no other file changes. Stopped at any moment, the output file is as before or holds the beginning of the new one. Write errors are ignored: the status is 0 although the file is cut short; and there is always a moment at which the old file is lost and the new one empty.", "quantifier": "every scene, settings, content of the disk, failure of the file system, crash point", "why_tests_cant": "Tests do not run on full disks or stop the program between two system calls; the outcomes range over all scenes and all contents of the disk.", "anchors": ["src/anim_pipeline/anim_pipeline.cpp: RunAnimPipeline", "src/anim_pipeline/flat_anim.cpp: OutputFlatBuffer"]}
{"id": "C94", "title": "Defining animations written to files", "statement": "For at most 256 well-formed animations without quaternions that agree on what their ids stand for, the tool for defining animations writes a file and exits with status 0, and the file reads as an animation with the hierarchy of the animation with the most bones, whose bones have, in the order of their ids and without repetition, exactly the operations that the animations use. Without an output and an input, or if an input does not load, it exits with -1 and the disk is as before. The constants of the defining animation are lost, however; a defining animation with quaternions is written to a file that cannot be read; and if the output cannot be opened the tool reports success.", "quantifier": "every list of animations, every layout of the tables, every content of the disk", "why_tests_cant": "The operations of the file depend on all operations of all animations.", "anchors": ["src/anim_pipeline/defining_anim_pipeline.cpp: CreateRigAnimFbFromRigAnim, SaveFile, main", "src/motive/anim_table.cpp: CreateDefiningAnim", "src/motive/io/flatbuffers.cpp: RigAnimFromFlatBuffers"]}
{"id": "C95", "title": "Matrix and SQT motivators driven by spline motivators reach their poses", "statement": "Take a matrix motivator whose operations are constants or driven by spline motivators, in any state of motion. Any number of BlendToOps calls to constants, one after the other, each followed by frames of any lengths that add up to its blend time, succeed; after each, the operations of the new list have their constants and the others their defaults, at rest, up to quantisation (and whole turns for angles), and the matrix is the product of the elementary transforms with these values. When a blend takes time, no driven value jumps by more than quantisation or 0.001. SQT motivators reach their poses too; when a blend is to the other hemisphere, the components are negated exactly and the matrix stays the same, but they lose their velocity.", "quantifier": "every list of operations, every state of their motivators, every sequence of poses and blend times, every division of time into frames", "why_tests_cant": "The motivators can be in any state of motion when a blend starts, and poses follow each other in any order, with frames of any lengths.", "anchors": ["src/motive/processor/matrix_data.h: BlendToOps", "src/motive/processor/sqt_data.h: BlendToOps, AlignQuaternionOps", "include/motive/matrix_op.h: BlendToOp, BlendToDefault, RangeOfOp", "src/motive/processor/spline_processor.cpp: SetTarget, AdvanceFrame"]}
{"id": "C96", "title": "Splines play for ever, whatever they blend from", "statement": "A spline motivator that is told to play a spline, with or without a blend time, repeating or not, for plain values or angles, and whatever it was doing before, plays it for any length of time: any number of frames pass, and the playback rate and position are set, in any order, and nothing fails as long as no single stride is longer than 2^31 grains of the spline. The position is always that of a clock that the frames and setters move, modulo the end of the spline if it repeats. During a blend the value follows one cubic that leads from the old value and slope to the value and slope of the spline at the end of the blend; after it, the value and velocity are the scaled and shifted ones of the spline, and past its end those of its last node, at rest.", "quantifier": "every well-formed spline, every state of the record, every playback, every finite sequence of frames and setters with bounded strides, every program of other motivators around it", "why_tests_cant": "Animations play for hours at frame times that vary; the cached segment, the wrap of the position and the quantised index must stay consistent through all of them, and a blend can start in any state of motion.", "anchors": ["src/motive/math/bulk_spline_evaluator.cpp: SetSplines, BlendToSpline, CalculateBlendInit, AdvanceFrame, InitCubic", "src/motive/math/compact_spline.cpp: IndexForX, IndexForXAllowingRepeat", "src/motive/processor/spline_processor.cpp: SetSplines, SetSplineTime, SetSplinePlaybackRate"]}
{"id": "C97", "title": "Matrix and SQT motivators play clips", "statement": "A matrix motivator whose operations are driven by spline motivators can be told to play animations one after the other: lists of operations with splines, constants or targets, each with its own start, rate, repetition and blend time, each interrupted at any moment by the next, with frames of any lengths up to 32 seconds. Nothing fails. At any time T of the last one, its matrix is the product of the elementary transforms of its operations; once the blend is over, each operation with a spline shows the spline at start + T * rate (modulo its length if it repeats), each one with a constant or target holds it, and each one that the animation does not mention holds its default value. Blending to a spline starts at the old value. The same holds of SQT motivators, after the alignment of hemispheres.", "quantifier": "every sequence of clips with operations of ascending ids and a fixed type for each id, every well-formed spline and target, every playback forwards, every sequence of frame times up to 32000 ms, every state of the operations before", "why_tests_cant": "Which operations exist, what each was doing and how far it had got when the next animation starts depend on the whole history of animations and frame times.", "anchors": ["src/motive/processor/matrix_data.h: BlendToOps, UpdateResultMatrix", "src/motive/processor/sqt_data.h: BlendToOps, AlignQuaternionOps", "include/motive/matrix_op.h: MatrixOperation", "src/motive/processor/spline_processor.cpp: SetTarget, SetSplines", "src/motive/math/bulk_spline_evaluator.cpp: SetSplines, AdvanceFrame"]}
{"id": "C98", "title": "Rigs play animations", "statement": "A program creates a rig and then plays animations, blends several of them, sets their weights and advances the engine, in any order. At the end of every frame, if T is the time since the last call that started animations: the transform of each bone that a program reads is the product of local transforms from the top of the hierarchy down to the bone, leaving out the root bone, whose transform is the root motion; the local transform of a bone is that of its motivator or, if several animations play, the weighted average of those of its motivators; and each of these motivators shows what its animation asks for at T: splines at start + T * rate, modulo their length if they repeat, once the blend is over; constants and targets; and defaults for operations that it does not mention, starting from what the bone showed before. On rigs without quaternions, no call fails if the hierarchies match, the first weight is positive and the clock does not overflow. Animations with and without quaternions do not mix on a bone: an assertion fails by the next frame.", "quantifier": "every hierarchy, every program of calls in any order, every animation whose bones are clips as in C97, every playback forwards, all weights, all frame times up to 32000 ms", "why_tests_cant": "What a bone shows depends on the whole history: which animations were interrupted when, which motivators were kept, copied or made, and how the frames fell.", "anchors": ["src/motive/processor/rig_data.h: BlendToAnim, BlendToAnims, SetWeights, UpdateGlobalTransforms", "src/motive/processor/rig_processor.cpp: AdvanceFrame", "src/motive/processor/matrix_processor.cpp: AdvanceFrame, Value", "src/motive/processor/sqt_processor.cpp: AdvanceFrame, Value", "include/motive/rig_anim.h: RigAnim"]}
{"id": "C99", "title": "Curves and splines in single precision", "statement": "A CubicCurve made from values and slopes at both ends and evaluated in single precision is accurate at every float x on its width: its value differs from that of the exact Hermite cubic by at most half a unit in the last place of the value, 2^-17 of the amount by which the curve may change (difference of the values plus width times the slopes), and 2^-50; its slope by at most half a unit, 2^-16 of the mean rate of change, and 2^-80; its second and third derivatives by at most 2^-15 and 2^-16 of the change over the square and the cube of the width, and 2^-110 and 2^-140. It starts with exactly the given value and slope, a curve that is to stay put stays exactly put, and ShiftLeft keeps the value, slope and third derivative at the new origin exactly, and the second derivative up to the least positive float. CompactSpline evaluated in single precision (CalculatedSlowly: YCalculatedSlowly, DerivativeCalculatedSlowly) gives, more than 9/16 of a granularity away from its nodes, the value and derivatives of the exact cubic through the two neighbouring nodes as they report themselves, at a position at most 1/64 of a granularity away, up to those errors. At the reported position of a node it gives exactly the reported y and slope, except for the second and the last node and nodes that share a position; outside it is exactly constant. The end of a curve need not be met exactly: witnesses show a value beyond the end, and beyond the y range of the spline.", "quantifier": "every rounding to nearest, with and without fused multiply-add, all float values and slopes, all widths from 2^-30 to 2^30, all float x; all splines with sorted nodes and granularity from 2^-30 to 2^14, every tan function", "why_tests_cant": "The error bound must hold for every combination of floats, of which tests sample a few; the worst cases are rare.", "anchors": ["src/motive/math/curve.cpp: CubicCurve::Init, CubicCurve::ShiftLeft", "include/motive/math/curve.h: CubicCurve::Evaluate, CubicCurve::Derivative, CurveValue", "src/motive/math/compact_spline.cpp: CalculatedSlowly, IndexForX, CreateCubicInit", "include/motive/math/compact_spline.h: WidthX"]}
{"id": "C100", "title": "Programs control single operations of a matrix", "statement": "The operations (children) of a matrix or SQT motivator can be read and controlled one by one. Whatever sequence of SetChildTarget1f, SetChildValue1f, SetChildValue3f and AdvanceFrame a program makes, the number of children, their ids and types stay as Initialize made them, in the order of the list that was passed; each child experiences exactly the calls that name its index and the frames: a driven child's motivator is given these targets in order and advances, a constant child has the last value that was set, and no other child is affected. ChildValue1f and ChildValue3f return the current values of consecutive children. The matrix that a program reads is the product of the elementary transforms of the values at the end of the last frame. The calls succeed if and only if the children exist, targets are given to children with a motivator, values to constants, and angles are in (-pi, pi]. A child driven by a spline motivator reaches the target that it was given, and stays, whatever happens to the others. The documented precondition of SetChildTarget1f, that the operation was initialised with a MotivatorInit, is not enough: with an initial value within 1/1000 of the default, the motivator is dropped in the constructor; and after BlendToOps an index may mean another operation.", "quantifier": "every list of operations, every finite sequence of calls and frames, every child; every motivator type for the first claims, spline motivators for the last", "why_tests_cant": "Sequences of calls and lists of operations are unbounded; that a call has no effect on other children must be shown for all of them.", "anchors": ["include/motive/matrix_motivator.h: NumChildren, ChildValue1f, ChildValue3f, ChildMotivator1f, SetChildTarget1f, SetChildValue1f, SetChildValue3f", "src/motive/processor/matrix_processor.cpp: ChildValues, SetChildTarget1f, SetChildValues, AdvanceFrame", "src/motive/processor/sqt_processor.cpp: ChildValues, SetChildTarget1f, SetChildValues", "include/motive/matrix_op.h: SetTarget1f, SetValue1f, MatrixOperation"]}
{"id": "C101", "title": "Playing a spline in single precision", "statement": "A spline that is played by an evaluator in single precision, in frames of any lengths and at any non-negative rates, never fails, and is where it should be: after n frames its position differs from start_x plus the distance played (the sum of delta_x times the rate) by at most (n + 1)(E + D + g) / 2^20, where E is the length of the spline, D the longest step and g its granularity; a repeating spline, up to a whole number of lengths. The y and derivative that it shows are those of the spline at that position, scaled by y_scale and shifted by y_offset, up to explicit rounding errors: constant before the first node, and on a segment those of the exact cubic through its two nodes. A spline that does not repeat shows exactly its last y, and the slope 0, once it has been played past its end, and for ever after. Ys(start_x, delta_x, n) returns n samples, the i-th at start_x + i delta_x up to the same error. There is a limit: a rate so low that a step is less than half a unit in the last place of the position does not move the spline at all.", "quantifier": "every spline that AddNode can build, every start within it, every finite sequence of frames and rates with steps of at most D (for repeating splines, less than the length), every scale and offset, every rounding to nearest, every rounding of tan, with or without fused operations", "why_tests_cant": "Errors accumulate over an unbounded number of frames, and depend on the positions at which the code changes from one segment to the next.", "anchors": ["src/motive/math/bulk_spline_evaluator.cpp: JumpToSpline, InitCubic, UpdateCubicXs_OneStep, AdvanceFrame, EvaluateIndex", "include/motive/math/bulk_spline_evaluator.h: X, Y, Derivative, SetPlaybackRates", "src/motive/math/compact_spline.cpp: RangeX, IndexForXAllowingRepeat, CreateCubicInit, Ys, BulkYs, BulkEvaluate"]}
{"id": "C102", "title": "Blending to a spline in single precision", "statement": "An index of an evaluator that shows the value y and the derivative d is told to blend to a spline from start_x on, over the distance w = blend_x * playback_rate, in single precision. The end of the blend is the value and slope that the spline shows at start_x + w. Until the distance played reaches w (up to rounding errors of the position, as in C101), the index follows the exact cubic from y and d to that end: the value is off by at most |y| / 2^19 + T^3 C / 2^17 + 2^-45 and the slope by at most T^2 (C / w) / 2^15 + 2^-75, where C = |end - y| + w (|d| + |end slope|) is the amount by which the value may change, T = 1 + 2 (A + g) / w, A is the distance of start_x from the beginning of its segment and g the granularity. Afterwards it shows the spline as in C101. In particular, before the first frame it still shows y and d, up to that error. There is a limit: the error does grow with the third power of A / w; in a segment of 65535 units, a blend from 10000 on over 64 units begins with a jump from 1 to less than 1/2, and one from 60000 on over 16 units, from 0 to a spline between 0 and 1, runs beyond 2000.", "quantifier": "every spline that AddNode can build, every start within it, every value and derivative shown before, every non-negative blend length and rate with a product between 2^-30 and 2^29, every finite sequence of frames and rates with steps of at most D, every scale and offset, every rounding to nearest, every rounding of tan, with or without fused operations", "why_tests_cant": "The error depends on the ratio of two lengths that animators choose, and a test with short segments does not show it.", "anchors": ["src/motive/math/bulk_spline_evaluator.cpp: CalculateBlendInit, BlendToSpline, SetSplines, AdvanceFrame", "include/motive/math/curve.h: ShiftLeft, ShiftRight", "src/motive/math/compact_spline.cpp: IndexForXAllowingRepeat"]}
{"id": "C103", "title": "Overshoot motivators settle from every start", "statement": "An overshoot motivator, either without wrap-around and with a target strictly inside of its range, or with wrap-around at -R and R where one step covers at most R/10 (max_velocity * max_delta_time <= R/10), whose thresholds and limits are positive (with a step limit that does not bind: max_velocity * max_delta_time <= max_delta), whose wrong_direction_multiplier is at least 2 and whose max_delta_time is short compared with the oscillation (31 accel_per_difference max_delta_time^2 <= 1 and 7 accel_per_difference wrong_direction_multiplier max_delta_time^2 <= 1), settles: there is a number of frames, which depends only on the configuration and the target, after which its value is exactly the target and its velocity 0, whatever its value and velocity were, inside of the limits or not (with wrap-around: whatever angle in the range its value was), and however long each frame is. The configuration of angles in the unit tests meets these conditions. Three of the conditions cannot be dropped: sent to the end of its range a motivator keeps a velocity for ever although its value stays on the target; with multiplier 1 it keeps its energy and swings for ever; with steps that are too long it swings for ever although it is damped.", "quantifier": "every configuration and target as described, every value and velocity at the beginning, every finite sequence of frames with at least that number of frames with time in them", "why_tests_cant": "That a motivator comes to rest is a statement about arbitrarily long runs from a continuum of starts; a test can only watch some of them for a while.", "anchors": ["src/motive/processor/overshoot_processor.cpp: AdvanceFrame, CalculateVelocity, CalculateValue", "include/motive/overshoot_init.h: AtTarget, ClampVelocity, ClampDelta"]}
{"id": "C104", "title": "Twitch boosts a settled motivator, which settles back", "statement": "Twitch(direction, velocity, settled, motivator) changes a motivator only if it is within both thresholds of settled, and then only its velocity, to velocity or -velocity as the direction says; kTwitchDirectionNone and motivators that are not settled are left alone, and so are all other motivators. An overshoot motivator with a configuration as in C103 is exactly on its target and at rest again after a number of frames that depends only on the configuration and the target. Settled(motivator) is true exactly if every dimension is within both thresholds. All this holds of the motivator at the start of the processor's array; of the others it is false: because Differences() looks at the wrong value, a motivator at rest on its target is not boosted, and one far from its target may be. Of spline motivators it is false, too: one that is settled gets no boost; whatever it was playing is replaced by its current value, at which it stays at rest for ever.", "quantifier": "every motivator of an overshoot processor and every spline motivator, every state, direction, boost and thresholds, every finite sequence of frames afterwards", "why_tests_cant": "The tests use one motivator per engine, for which the difference is right; and that the motivator settles back concerns arbitrarily long runs.", "anchors": ["include/motive/util.h: Twitch, Settled1f::Settled", "include/motive/target.h: Current1f", "src/motive/processor/overshoot_processor.cpp: Differences, SetTargets", "src/motive/processor/spline_processor.cpp: SetTarget, Differences"]}
{"id": "C105", "title": "The debugging tables of a rig name the values they show", "statement": "After any program of calls, each bone of a rig has the operations of the first animations of the calls so far, in the order of their ids, and no others. If these are the operations of the animation that defines the rig, then CsvHeaderForDebugging() and CsvValuesForDebugging() are tables with one column per operation: the name of the bone over its first operation, the name of the operation, and its current value, angles in degrees; and the time is that since the animation was started, if it is the longest of those started with it. LocalTransformsForDebugging() shows for a bone, its parent and so on their local transforms and their operations with values, if the current animation has all operations that they have. Otherwise the claims are false: values are shown under the names of other operations, with fewer operations than the definition; values are written past the end of a vector, with more; and the time is too small by what the first animation is shorter than the longest.", "quantifier": "every hierarchy, every defining animation, every program of plays, blends, changes of weights and frames, every bone", "why_tests_cant": "No test calls these functions; that columns and values agree is about every history of animations.", "anchors": ["src/motive/processor/rig_data.h: CsvHeaderForDebugging, CsvValuesForDebugging, ChildValuesForDebugging, LocalTransformsForDebugging", "src/motive/rig_anim.cpp: CsvHeaderForDebugging, NumOps", "src/motive/matrix_op.cpp: MatrixOpName"]}
{"id": "C106", "title": "Playback rates of a rig reach the animations they are for", "statement": "SetPlaybackRates gives the i-th rate to every bone of the i-th animation being blended, and leaves animations that have no rate, and everything else of the rig, as they were. SetPlaybackRate and SetRepeating do so for all animations. Before the first animation they do nothing. With more rates than animations, SetPlaybackRates uses motivators past the end of a vector.", "quantifier": "all rigs, lists of rates and histories of BlendToAnim, BlendToAnims, SetWeights, playback changes and frames", "why_tests_cant": "unbounded numbers of bones, animations and rates, and unbounded histories", "anchors": ["src/motive/processor/rig_data.h: SetPlaybackRate, SetPlaybackRates, SetRepeating", "include/motive/matrix_motivator.h: SetPlaybackRate, SetRepeating"]}
{"id": "C107", "title": "What a spline motivator says about its target comes true", "statement": "While a motivator plays a spline, TargetValue is the value it will reach, TargetTime the time until then, Difference what is missing (around the circle for angles), TargetVelocity the slope of the end of the spline times the playback rate, and SplineTime the position on the spline; TargetTime counts down to the arrival, and once it is over the motivator rests at TargetValue with a difference of 0. After SetSplineTime(t), SplineTime is t. TargetTime of several dimensions is the greatest one. Of a spline that repeats, TargetTime() is the time until the end of the current turn: between 0 and the length of the spline, up to half a grain, and counting down modulo that length.", "quantifier": "all splines, playback parameters, previous states (with and without blends, angles and plain numbers), and histories of frames, rate and position changes", "why_tests_cant": "the prediction is about all later frames, whatever their lengths, after any history", "anchors": ["src/motive/processor/spline_processor.cpp: TargetValues, TargetVelocities, Differences, TargetTime, SplineTime", "include/motive/math/bulk_spline_evaluator.h: EndX, EndY, EndDerivative, YDifferenceToEnd, X", "include/motive/vector_motivator.h: TargetTime, SplineTime, TargetValue, Difference"]}
{"id": "C108", "title": "When TimeRemaining is over, the pose rests", "statement": "A matrix motivator, or a rig, plays animations that do not repeat. TimeRemaining does not take the playback rate into account. At a rate of 1 it goes down by exactly the lengths of the frames, to 0. At any rate, from two units after TimeRemaining on, of time and of the animations, and once the blends are over, nothing moves any more: the matrix, or the transforms of all bones and the root motion, are the same whatever frames follow.", "quantifier": "all histories of plays, blends, changed weights and frames before, all clips (splines with grains of at most a unit, targets, and constants), all rigs in order, and all sequences of later frames", "why_tests_cant": "the claim is about all later frames, whatever their lengths, after any history of blends", "anchors": ["src/motive/processor/rig_data.h: RigData::TimeRemaining", "include/motive/matrix_motivator.h: TimeRemaining", "src/motive/processor/matrix_processor.cpp: TimeRemaining", "src/motive/processor/sqt_data.h: TimeRemaining", "include/motive/matrix_op.h: MatrixOperation::TimeRemaining", "src/motive/processor/spline_processor.cpp: TargetTime"]}
{"id": "C109", "title": "Slow motion and pauses", "statement": "While a rig plays animations, only the product of the playback rate and the length of a frame matters: with half the rate and frames twice as long the rig has the same pose, root motion and time remaining. A playback rate of 0 pauses a rig or a spline motivator: after one frame nothing changes any more, however long the pause.", "quantifier": "all histories of plays, blends, changed weights, changed rates and frames before the pause, all rigs in order, all rates and lengths of frames", "why_tests_cant": "a pause may begin anywhere in any animation and last any number of frames", "anchors": ["include/motive/rig_motivator.h: SetPlaybackRate", "src/motive/processor/rig_data.h: RigData::SetPlaybackRate", "src/motive/math/bulk_spline_evaluator.cpp: AdvanceFrame, SetPlaybackRates, InitCubic, EvaluateIndex", "src/motive/processor/spline_processor.cpp: SetSplinePlaybackRate"]}
{"id": "C110", "title": "Sampling splines, and splines made of samples", "statement": "Sampling several splines at evenly spaced x writes, for every spline and every point, the value and the derivative of that spline at that x into its own place of the arrays, and writes nothing beyond them; the values do not depend on whether derivatives are asked for. A spline created from another spline has at most the number of nodes asked for, starts and ends where the source does, has the same granularity, and every node lies on the curve of the source and has its slope, up to the rounding of the compact format.", "quantifier": "all splines of any number of nodes, all numbers of splines up to 65536, all numbers of points up to 65535, all starts and steps that are not negative, all contents of the arrays before", "why_tests_cant": "the number of splines, of their nodes and of points is unbounded, and the points fall anywhere in the segments", "anchors": ["include/motive/math/compact_spline.h: BulkYs, BulkEvaluate, Ys, CreateFromSpline, CreateFromSplineInPlace", "src/motive/math/compact_spline.cpp: YsBulkOutput, BulkEvaluate, BulkYs, InitFromSpline"]}
{"id": "C111", "title": "Spline motivators do not affect each other", "statement": "What is read from each dimension of a spline motivator (value, velocity, direction, target value, target velocity, difference, target time, spline time) is what a single value with a spline of its own would give that went through the same setters and frames: it does not depend on other motivators, on motivators that existed before, on splines that were used before and are used again, on moves of motivators or of their data, nor on cloning. In particular every target set on a motivator that was initialised without a modular range is followed, in every program, and on one that was initialised with one it is followed up to multiples of that range, under the conditions of C41. A call that is fine for the single values fails in the processor only if it clones a motivator with a dimension that has no spline.", "quantifier": "all sequences of Initialize, Invalidate, moves, CloneFrom, SetTargets, SetSplines, SetSplinesAndTargets, SetSplineTime, SetSplinePlaybackRate, SetSplineRepeating and AdvanceFrame over any number of motivators of any dimensions, all targets, all splines of the caller", "why_tests_cant": "a spline that is shared by mistake shows only in histories in which it is freed, handed out again and written while it is still played", "anchors": ["src/motive/processor/spline_processor.cpp: SetTargets, SetSplines, SetSplinesAndTargets, SetTarget, CloneIndices, RemoveIndices, MoveIndices, AllocateSpline, FreeSpline", "include/motive/math/bulk_spline_evaluator.h: CopyIndices", "src/motive/math/bulk_spline_evaluator.cpp: SetSplines, ClearSplines"]}
{"id": "C112", "title": "Benchmarks measure what they say", "statement": "RegisterBenchmark numbers names in order. The samples of an id are the times for which its Benchmark objects existed, in the order in which they ended, since the last ClearBenchmarks, also when objects are nested or overlap and when the clock wraps around. OutputBenchmarks never fails and reports on each id with samples: the least and the greatest sample, the rounded mean if the sum fits in 64 bits, a standard deviation that is off by less than one and a half ticks if the sum of squares fits, and a graph with a bar for each of 80 parts of the range. Without these bounds the reports can be wrong, and the scale of the graph does not take the first part into account.", "quantifier": "all programs of registrations, clears, constructions and destructions of Benchmark objects and any times between them; all lists of samples", "why_tests_cant": "timings are not reproducible: a test cannot tell a wrong mean or a lost sample from a slow machine, and 64-bit and 16-bit overflow need special samples", "anchors": ["include/motive/util/benchmark.h: Benchmark, RegisterBenchmark, ClearBenchmarks, OutputBenchmarks", "src/motive/util/benchmark.cpp: SampleAnalyzer::Average, StandardDeviation, MinMax, Histogram, Statistics"]}
{"id": "C113", "title": "The checks of the internal state never fail", "statement": "With MOTIVE_VERIFY_INTERNAL_STATE and MOTIVE_INDEX_ALLOCATOR_VERIFY_INTERNAL_STATE defined, every program that uses motivators does what it does without them: no assertion of VerifyInternalState fails and it follows no null pointer. The checks are complete: if they pass then all indices are in blocks, each block that is allocated belongs to one valid motivator in all its indices, and no motivator has two blocks.", "quantifier": "all sequences of Initialize, Invalidate, moves, CloneFrom, setters, AdvanceFrame and destruction of processors, over any number of motivators, dimensions and processors; all contents of the arrays for completeness", "why_tests_cant": "the checks are compiled out by default, and a test run with them covers only its own history of allocations and compactions", "anchors": ["src/motive/processor.cpp: VerifyInternalState, RemoveMotivator, TransferMotivator, AllocateMotivatorIndices", "include/motive/util/index_allocator.h: VerifyInternalState, ValidIndex"]}
{"id": "C114", "title": "Each operation of a matrix or SQT motivator has its own motivator, wherever operations move", "statement": "The operations of all matrix (or SQT) motivators use motivators in processors that they share with each other and with the rest of the program, and they are moved whenever a vector of operations grows or an operation is inserted before others. Still, in every program each matrix motivator behaves as if the motivators of its operations were values inside it: initialisation, BlendToOps, SetPlaybackRate, SetRepeating, SetChildTarget1f, SetChildValue1f/3f, frames, moves, clones and invalidation do to it what they do to such a value, and fail just when they fail then. Where the operations lie in memory and what is done with other motivators makes no difference. A matrix motivator that is not cloned or moved from or to another is as if it were alone. No motivator of an operation is left behind, and no two operations share one.", "quantifier": "all programs over any number of matrix motivators and other motivators, all lists of operations, all choices of memory by the allocator and all moments at which vectors reallocate, and every kind of processor for the operations", "why_tests_cant": "a test sees one layout of memory, one sequence of reallocations and one history of the shared processors", "anchors": ["include/motive/matrix_op.h: MatrixOperation", "src/motive/processor/matrix_data.h: Init, BlendToOps", "src/motive/processor/sqt_data.h: Init, BlendToOps", "src/motive/processor/matrix_processor.cpp", "src/motive/processor/sqt_processor.cpp", "src/motive/processor.cpp"]}
{"id": "C115", "title": "Each bone of a rig has its own motivator, however many rigs there are and wherever their motivators move", "statement": "All rigs keep the motivators of their bones, one for each bone and animation, in the same matrix and SQT processors, which in turn keep the motivators of all operations in the same spline processor; they are moved when a vector grows, cloned when a second animation starts to blend, and destroyed when fewer animations play or the rig is invalidated. Still, in every program each rig behaves as if the motivators of its bones, with their operations, were values inside it: Initialize, BlendToAnim, BlendToAnims, SetWeights, SetPlaybackRate, SetPlaybackRates, SetRepeating, frames, moves and invalidation do to it what they do to such a rig, and fail just when they fail then. Where motivators lie in memory makes no difference. From its creation on, a rig is what the calls on itself, and the frames, make it, whatever happens to other rigs and motivators. No motivator of a bone or of an operation is left behind and no two bones share one.", "quantifier": "all programs over any number of rigs, matrix motivators and other motivators, all animations and playback parameters, all choices of memory by the allocator and all moments at which vectors reallocate", "why_tests_cant": "a test sees one layout of memory, one sequence of reallocations and one history of the shared processors", "anchors": ["src/motive/processor/rig_data.h: RigData, BlendToAnim, BlendToAnims", "src/motive/processor/rig_processor.cpp", "include/motive/matrix_motivator.h", "include/motive/motivator.h", "src/motive/processor.cpp"]}
{"id": "C116", "title": "Motivators configured from a file behave as the schema documents", "statement": "OvershootInitFromFlatBuffers, SplineInitFromFlatBuffers and Settled1fFromFlatBuffers give a configuration that depends on the table alone and uses each number for what the schema says. An overshoot motivator with such a configuration keeps its value between min and max, wrapping around if modular is set, and its speed within max_velocity, whatever targets within the limits are set; each frame accelerates, limits, stops and moves it by the numbers of the table; if these are well tuned it settles at every target. A spline motivator with modular set wraps around between min and max, and its value stays between min and max otherwise.", "quantifier": "all tables, all earlier contents of the configuration, all motivators and all sequences of frames and targets", "why_tests_cant": "the limits have to hold for every table and every history of the motivator, and the loaders accept every table a file can contain", "anchors": ["src/motive/io/flatbuffers.cpp: OvershootInitFromFlatBuffers, SplineInitFromFlatBuffers, Settled1fFromFlatBuffers", "schemas/motive.fbs", "include/motive/overshoot_init.h", "src/motive/processor/overshoot_processor.cpp"]}
{"id": "C117", "title": "Text graphs show the points", "statement": "Graph2DPoints draws each point as a star at the character nearest to it, for a scale that spans the points, and draws no other stars; the axes are where x and y of the frame are 0. GraphCurveOnXRange draws one star per column, at the height of the curve there. Both touch no memory outside the points.", "quantifier": "all lists of points in any order and with repetitions, all curves and ranges, all sizes of the drawing", "why_tests_cant": "the drawing is a merge of a scan over the screen with sorted points; that none is skipped has to hold for every constellation of points", "anchors": ["src/motive/math/curve.cpp: Graph2DPoints, Round, CompareBigYSmallX", "include/motive/math/curve.h: GraphCurveOnXRange"]}
{"id": "C118", "title": "Keys of the viewer", "statement": "In the viewer, time advances in exactly the frames in which the animation is not paused: the space bar toggles, and the single-step key, when paused, advances one frame and pauses again. The next-animation key, and the end of an animation, start the animations given on the command line in turn, from the first again after the last. The rate the user chose is always the one last given to the rig, and stays within the limits.", "quantifier": "all sequences of frames with any keys, all numbers of animations, all rigs, all initial rates", "why_tests_cant": "the state of playback depends on the whole history of keys and of what the rig reports", "anchors": ["src/viewer/viewer.cpp: UpdateAnimation, UpdatePlaybackRate, main, kMinPlaybackRate, kMaxPlaybackRate"]}
{"id": "C119", "title": "Camera of the viewer", "statement": "Dragging with the mouse turns, moves and zooms the camera of the viewer, and however it is dragged, the camera looks at its target from a positive distance, at least its near plane, never from straight above or below. Dragging one way and then back returns. At the start, the whole model is in view.", "quantifier": "all sequences of mouse movements with any buttons, all three coordinate systems, all sizes of models", "why_tests_cant": "the pose of the camera accumulates over any number of drags", "anchors": ["src/viewer/viewer.cpp: Camera, CameraPosition, CameraRight, UpdateCamera", "include/motive/math/angle.h: LatitudeAndLongitudeToUnitSphere"]}
{"id": "C120", "title": "Command line of the viewer", "statement": "The viewer accepts exactly the command lines of its usage message: options in any order, short or long, then names of files. The options have the effect the message says, the last one of a kind counts, the mesh and the output are named after the first animation unless they are given, animations keep their order, and values are within their limits.", "quantifier": "all command lines", "why_tests_cant": "there is no limit on the number and order of options and files", "anchors": ["src/viewer/viewer.cpp: ParseCommandLine, ViewerArgs"]}
{"id": "C121", "title": "Clocks that wrap around", "statement": "It does not matter how long a program runs, nor that the clocks of processors wrap around: the times that a rig reports depend only on the time since its animation was started.", "quantifier": "all sequences of frames and animations started, of any total length", "why_tests_cant": "the clock wraps after 25 days, and the wrong answers are at single moments", "anchors": ["src/motive/processor/rig_processor.cpp: AdvanceFrame (comment on wrapping)", "src/motive/processor/rig_data.h: BlendToAnim, BlendToAnims, TimeRemaining, CsvValuesForDebugging, LocalTransformsForDebugging"]}
{"id": "C122", "title": "Copies of initialisation structs", "statement": "A motivator that is initialised with a SpringInit, EaseInEaseOutInit or ConstInit of vectors starts with the values that the struct was given, also if the struct is a copy.", "quantifier": "all programs that construct, copy and destroy such structs, in any order and at any addresses", "why_tests_cant": "what a dangling pointer reads depends on all that happened to memory since", "anchors": ["include/motive/simple_init_template.h: SimpleInit, SimpleInitTemplate", "include/motive/simple_processor_template.h: InitializeIndices"]}
{"id": "C123", "title": "Many splines of unknown size in one buffer", "statement": "Splines that are placed in a buffer one after the other, each given room, filled with nodes and closed with Finalize before the next is placed behind it, keep exactly their nodes, do not overlap, are aligned, waste nothing and never write outside of the buffer; and a spline whose number of nodes is below its maximum accepts another node.", "quantifier": "all buffers, numbers of splines, capacities and sequences of AddNode calls", "why_tests_cant": "the layout depends on all node counts, and whether AddNode adds one node or two depends on the curve", "anchors": ["include/motive/math/compact_spline.h: Finalize, Size, Next, CreateInPlace", "src/motive/math/compact_spline.cpp: AddNode"]}
{"id": "C124", "title": "Time left and shape of ease and spring motivators", "statement": "TargetTime of an ease-in-ease-out or spring motivator is the time that is left until the target is reached: frames that take no longer leave the motivator on its way, and frames that take longer leave it on the target, at rest. MotiveShape is the shape that was last given.", "quantifier": "all histories of targets, shapes and frames", "why_tests_cant": "the time left depends on the whole curve and on how time was cut into frames", "anchors": ["include/motive/vector_motivator.h: TargetTime, MotiveShape", "src/motive/processor/ease_in_ease_out_processor.cpp: SimpleTargetTime, MotiveShape", "src/motive/processor/spring_processor.cpp: SimpleTargetTime, SetTargetWithShape, MotiveShape", "src/motive/processor/spring_data.h: SpringData"]}
{"id": "C125", "title": "Assembly versions of the loops over splines", "statement": "On processors with NEON, the functions written in assembly leave in memory exactly what the C++ functions they stand for do, for any number of splines: they advance every x and set its mask, and evaluate every cubic; they write nothing else and keep the registers that belong to the caller.", "quantifier": "all numbers of splines, all contents of memory and registers, all arithmetic of floats", "why_tests_cant": "the functions run on one kind of processor only, and tests cannot cover all contents and placements of memory", "anchors": ["src/motive/math/bulk_spline_evaluator_neon.s: UpdateCubicXsAndGetMask_Neon, EvaluateCubics_Neon", "src/motive/math/bulk_spline_evaluator.cpp: UpdateCubicXsAndGetMask, EvaluateCubics, UpdateCubicXsAndGetMask_C, EvaluateCubics_C"]}
{"id": "C126", "title": "Ranges of integers", "statement": "RangeInt does for integers what Range does for floats: Normalize gives the value of the range that differs by a multiple of the length; Middle is the mid-point rounded down; Full contains every integer and Empty none; Covers is the smallest range with all values; IndexOfLongest, IndexOfShortest and ClampToClosest find the range they name; Percent goes from 0 to 1 with 0.5 in the middle.", "quantifier": "all ranges and lists of ranges of integers that do not overflow", "why_tests_cant": "all integers and lists of any length", "anchors": ["include/motive/math/range.h: RangeInt, Middle, Percent, NormalizeWildValue, Full, Empty, Covers, IndexOfLongest, IndexOfShortest, ClampToClosest"]}
{"id": "C127", "title": "Half-open ranges, tolerance, scaled ranges and the order of angles", "statement": "Ranges that follow each other split what they cover together if all leave out their ends, or all their starts. ContainsWithTolerance(x, p) holds exactly if x is no further from the range than p of its length. A range multiplied by a number contains the multiplied points. CreateValidRange(a, b) is the smallest range with both. The comparisons of angles agree with each other, and angles are equal exactly if they differ by whole turns.", "quantifier": "all ranges, points, tolerances, factors and angles", "why_tests_cant": "all numbers", "anchors": ["include/motive/math/range.h: ContainsExcludingStart, ContainsExcludingEnd, StrictlyContains, ContainsWithTolerance, operator*, CreateValidRange", "include/motive/math/angle.h: operator==, operator!=, operator<, operator>=, operator<=, operator>"]}
{"id": "C128", "title": "The linear processor of the programmer's guide", "statement": "After SetTarget a linear motivator moves on the straight line from its current value to the target value, whatever the lengths of the frames, is on the target at the target time and stays there; until then its velocity is the slope of the line and its target time is what is left. Current1f makes the new current value the target, too. The target time of several dimensions is the longest.", "quantifier": "all earlier states, values, target times and frame lengths", "why_tests_cant": "any sequence of frames", "anchors": ["src/samples/linear_processor/linear_processor.cpp: LinearMotiveProcessor::AdvanceFrame, SetTargets, Velocities, Differences, TargetTime", "docs/src/programmers_guide/processors.md", "include/motive/target.h: Current1f"]}
{"id": "C129", "title": "Setting the same target in every frame", "statement": "If SetTarget asks in every frame for the same value, velocity 0 and the same time (as the first example of the programmer's guide does while the screen is touched), the value still approaches the target and the velocity approaches 0, from any value and velocity and with frames of any lengths up to the target time, at least as fast as exp(-t/2T) after the time t. It is there within the target time. If the target moves, the value stays behind by at most 4/3 of the way the target goes in the target time, once the start is forgotten.", "quantifier": "all start values and velocities, targets, target times, frame lengths and numbers of frames", "why_tests_cant": "a limit over infinitely many frames", "anchors": ["src/samples/duck2f/duck2f.cpp: main", "docs/src/programmers_guide/motivator.md", "src/motive/processor/spline_processor.cpp: SetTargets", "src/motive/math/curve.cpp: CubicCurve::Init"]}
{"id": "C130", "title": "AlignedAlloc gives aligned memory", "statement": "AlignedAlloc(size, align) returns a block whose address is a multiple of align and suits every type, on every platform; it returns null only if there is no memory.", "quantifier": "all sizes, alignments, platforms (sizes of pointers and of max_align_t) and heaps that keep the promises of POSIX", "why_tests_cant": "a test runs on one platform with one heap", "anchors": ["include/motive/util.h: AlignedAlloc, AlignedFree"]}
{"id": "C131", "title": "The viewer draws meshes with their bones", "statement": "The viewer draws each vertex where the weighted mean of the transforms of its four bones takes it. So moving all bones moves the mesh, a vertex whose bones agree moves rigidly with them even if its weights are rounded, and a mesh without bones moves with the first bone. Normals, and with them the light, turn with the bones.", "quantifier": "all transforms, vertices, weights and cameras", "why_tests_cant": "all real matrices; shaders are not reachable from unit tests", "anchors": ["src/viewer/viewer.cpp: kVertexShaderSkinned, kVertexShaderMonolythic, FPL_main"]}
{"id": "C132", "title": "Ranges of unsigned integers", "statement": "RangeUInt does for unsigned integers what Range does for floats: Middle lies in the range half way between its bounds, Clamp gives the nearest value of the range, DistanceFrom the distance to it, ModDiff with the direct direction the difference with its sign, and Covers the smallest range with all values.", "quantifier": "all ranges, values and lists of values of 32 bits", "why_tests_cant": "overflow occurs for large values only", "anchors": ["include/motive/math/range.h: RangeUInt, Middle, Length, Clamp, DistanceFrom, ModDiff, Covers, Empty"]}
{"id": "C133", "title": "Normalize of double ranges", "statement": "For a RangeDouble, Normalize of a value within a length of the range returns the value of the range that is whole lengths away, as a double; in particular values in the range are returned unchanged.", "quantifier": "all ranges of doubles, all values within a length of the range and all ways to round to nearest", "why_tests_cant": "with bounds and values that happen to be floats, as 0.5 or 180, nothing goes wrong", "anchors": ["include/motive/math/range.h: RangeDouble, Normalize, ModularAdjustment"]}
