# Formal model of google/motive in Lean 4 — design

## Trusted base

* Lean 4.33.0 kernel. Every theorem depends on at most `propext`, `Classical.choice`, `Quot.sound`
  (checked for all theorems of MANIFEST.json while `lean/Verif/Audit.lean` is built).
* The reading of the C++ source: each definition cites file:lines. The code was not run.
* No own axioms, no `sorry`, no `native_decide`, no `bv_decide`.

## Modelling conventions

* **Integers.** `MotiveIndex`, counts and times are unbounded `Nat`/`Int`; signed overflow of `int` is not
  modelled unless a property is about it (where it is, this is said). 16-bit quantised values are bounded naturals.
* **Undefined behaviour / failed assertions** are an explicit outcome: functions that could index out of range,
  dereference null or trip an `assert` return `Option` (`none` = UB/assert/divergence). Theorems prove `some`.
* **Floats** are idealised: exact arithmetic in a linear ordered field (usually generic `K`, sometimes `ℚ`/`ℝ`).
  Code that only compares and copies floats is generic in a linear order and so is faithful for non-NaN floats.
  Rounding is not modelled there; the modules of `Float` model it for the code named in C81–C85 and C92.
  Overflow to infinity and NaN are not modelled unless stated.
* **Loops** without a syntactic bound are `partial_fixpoint` functions in `Option` (divergence = `none`), so a
  theorem of the form `∃ r, f s = some r ∧ …` proves termination too.
* **Pointers.** Motivator objects are addresses (`Nat`) into a heap of handles; processors own arrays.

## Modules (lean/Verif)

| module | source | content |
|---|---|---|
| `Alloc/*` | util/index_allocator.h | C01–C05 |
| `Proc/*` | processor.h/.cpp, motivator.h/.cpp, simple_processor_template.h, vector_motivator.h, vector_processor.h | C06–C12, C39, C89, C90, C113 |
| `Engine/*` | engine.h/.cpp; priorities and AdvanceFrame of all processors | C12–C15, C78 |
| `Math/Range*`, `Math/Angle*` | math/range.h, math/angle.h | C16–C20, C55, C56, C62, C126, C127, C132, C133 |
| `Math/FloatBits` | math/float.h | C53 |
| `Spline/*` | math/compact_spline*.{h,cpp}, bulk_spline_evaluator | C21–C28, C57, C58, C63, C86, C110, C123, C125 (bulk_spline_evaluator_neon.s) |
| `Curve/*` | math/curve.*, dual_cubic.cpp, curve_util.* | C29–C32, C36, C37, C117 |
| `Slot/Spring*`, `Slot/Ease*` | processor/spring_*, processor/ease_in_ease_out_* (one dimension of one motivator; layout is `Proc`) | C37, C59 |
| `Slot/TimeLeft` | `TargetTime` and `MotiveShape` of the same processors | C124 |
| `Slot/Linear` | samples/linear_processor/linear_processor.cpp | C128 |
| `Curve/Retarget*` | samples/duck2f/duck2f.cpp, motive/math/curve.cpp | C129 |
| `Slot/Overshoot*`, `Slot/Const`, `Slot/Params` | processor/overshoot_processor.cpp, overshoot_init.h, processor/const_*, io/flatbuffers.cpp:49-73 | C33–C35, C38, C60, C61, C103, C104, C116 |
| `Proc/Partial` | frames whose per-slot update may fail | C34, C39 |
| `SplineProc/*` | processor/spline_processor.*, motivator target.h | C40, C41, C54, C91, C96, C104, C107, C109, C111 |
| `Matrix/*`, `Rig/*` | matrix_op.*, matrix_data.h, sqt_data.h, rig_data.h, rig_processor.cpp, parts of matrix_processor.cpp and sqt_processor.cpp | C42–C46, C64–C67, C73, C88, C95, C97, C98, C100, C105, C106, C108, C109, C114, C115, C121 |
| `Owner/*` | copies and destruction of matrix operations: matrix_op.h, matrix_processor.cpp, sqt_processor.cpp | C79, C80 |
| `Table/*` | anim_table.* | C47, C48 |
| `Float/*` | angle.h, range.h, compact_spline_node.h and clocks of processors, overshoot_processor.cpp, curve.cpp, evaluation in compact_spline.cpp, with rounding | C81–C85, C92, C99, C101, C102 |
| `Util/*` | spline_util.h, keyframe_converter.cpp, target.h, simple_init_template.h, benchmark.*, util.h | C49, C50, C54, C112, C122, C130 |
| `Viewer/*` | viewer/viewer.cpp: keys, camera, command line and vertex shaders; not: loading, fragment shaders and logging | C118–C120, C131 |
| `Pipeline/*` | anim_pipeline/anim_data.cpp, flat_anim.cpp, defining_anim_pipeline.cpp, anim_pipeline.cpp from line 35 except loading of files and textures; motive/io/flatbuffers.cpp from line 75; motive/rig_anim.cpp | C51, C52, C68–C72, C74–C77, C87, C93, C94 |

## Code that is not modelled

* Whole files: src/benchmarker, util/optimizations.*, version.*,
  math/vector_converter.h, schemas other than the tables of C71 and C116; the generated FlatBuffers code, mathfu, fplutil and the FBX SDK, which are not in /repo.
* Text output: `LogChannel`, `LogAllChannels`, `LogAnimStateAtTime`, `LogUsage`, and `Text` of curve.*.
* Loading of FBX files and textures (anim_pipeline.cpp:56-172), and the static assertions of io/flatbuffers.cpp:25-47.
* The switch between C++ and NEON variants (bulk_spline_evaluator.cpp:371-463, optimizations.*; the assembly itself is modelled, C125); SIMD variants of MathFu; registration of benchmarks (processor.cpp:222-227).
* One-line accessors, constructors and conversions that only forward to modelled functions (`MatrixMotivator4f`, `RigMotivator`, `*Init` classes,
  `SimpleProcessorTemplate`'s getters), unless a property names them.
* Layout in memory, except where a property is about it (C28, C80, C86, C88, C123); threads (the library has none).

## Plan per property

* C01, C02: faithful model of `counts_`/`unused_indices_`; invariant "the counts array is tiled by blocks, the free
  list is a duplicate-free list of block starts"; induction over the op history; ghost-free statement about live blocks.
* C03–C05: ranking function (sum over live cells of their position) for the `Defragment` loop; relocation map as an
  existential witness; generic client invariant through the callbacks.
* C06–C11, C39: state = heap of handles + processor (allocator, back-pointers, payload array); invariant by
  induction over histories; per-operation refinement to the abstract map `motivator ↦ list of payloads`.
* C12–C15: engine as type-keyed map + priority-sorted list with a liveness flag per processor; C15 is expected to be
  false: prove the negation with a concrete history plus the partial theorem for histories without `Reset`.
* C16–C20: functions over a linear ordered (floor) field; uniqueness of residues.
* C21: exact arithmetic; floor/truncation bounds; derivative angle through `Real.arctan`.
* C22–C25: nodes as triples of naturals/integers; list induction; Hermite algebra by `field_simp; ring`.
* C26, C27: evaluator arrays; invariant "the cached cubic is the one for the segment containing x".
* C57, C58: the blend cubic is a Hermite cubic; induction over frames with a blending and a playing state.
* C28: arithmetic on sizes; ArraySize counterexample.
* C29–C32: polynomial identities; root characterisation via discriminant; sign of quadratics.
* C33–C35: induction over internal steps and frames.
* C36, C37: algebra of the two-piece curves. `Curve/RootRange.lean` gives plain bounds on the coefficients of a quadratic
  under which the root finder is exact, `Curve/EaseRange.lean` derives them from bounds on the motion (`UsualMotion`), and
  `Curve/EaseAny.lean` says what holds of the curve for every input, also where the root finder is not exact.
* C40: linear-ownership invariant (multiset of spline ids) over histories.
* C41: node list produced by SetTarget; continuity at 0 and attainment at the target.
* C42: matrices as 4×4 over a commutative ring; column operations = right multiplication; induction on op list.
* C43: list merge; sortedness, membership, blend status.
* C44: bilinear form algebra.
* C64: blocks of products; conformal and diagonal matrices by induction.
* C65: the last operation for each component; merge relation of C43.
* C45: induction on bone index with parents before children.
* C46: sums of normalised weights; closed form of the average of poses; invariant over histories of a rig.
* C66, C67: loops over bones and animations; the bone motivators are an interface (`Joint`).
* C68, C69: loops over bones, channels and nodes of an animation being imported; `none` is signed overflow or a loop that does not end.
* C70: model `CreateCompactSpline` on top of the compact-spline model (C21–C25). Specification: `Exportable`, a predicate on the keys. Induction over the
  keys shows that every key is added and lies within half a step of its place; the mean value theorem and the Hermite basis bound the distance of
  the curves.
* C71: model the tables of the file, the writer and the reader (with the reader's assertions as failures), and prove that reading what was
  written gives the channels of the input, by induction over channels and bones. The FlatBuffers library is trusted.
* C72: model the two loops; the specification says which operation drives which kind. Induction over the operations.
* C47: invariant over the positions of a table and over histories of loads; the specification is the first animation listed under a name.
* C48: invariant over the operations of a bone; the map from ids is a sorted list.
* C49: list induction for the times; the search for neighbours is a least fixed point in `Option`, so that not terminating is `none`.
* C50: loop invariant over the frames gives the list of nodes in closed form; then the quantised spline is evaluated with the theorems of C21–C25.
* C51, C52: list inductions. For C52 the loop is related to a list of steps (`Steps`), each of which leaves the product of matrices unchanged up to
  a change of the values of the operations.
* C53, C54: list inductions and arithmetic.
* C73: the copy is a sequence of `CloneFrom` calls on the processor model; its refinement (C39) gives the values after any later history.
* C74: `Pipeline/Scene.lean` models the three recursions over the node tree; the specification is the depth-first list of nodes with skin at or below them.
* C77: a list of channels is `Still` if no step of the pruning loop applies to it; the result of the loop is, and so is any list sorted from it.
* C75: the 33 operations of the transform are a list that depends on the rotation order only; the channels are those of the list that are not
  default constants (`Pipeline/Fbx.lean`). C52 and C77 apply to them, and their product is the formula.
* C76: with 15 ticks per interval the division of segments in `AddCurve` leaves a tick for each sample (`mid_roomy`), so nodes do not coincide (`Pipeline/FbxCurve.lean`).
* C78: `Engine/Frame.lean` puts the engine and three sorts of processors into one state; the priorities split the order of C14 into three phases. `Engine/FrameBones.lean` combines this with C42 and C45, and `Engine/FrameSqt.lean` with C65 for bones that are SQT motivators.
* C79, C80: `Owner/Model.lean` stacks two worlds of `Proc`: the slots of the upper one hold addresses of motivators of the lower one. Each call on a matrix is given as the calls that C++ makes on the children. `Owner/Calls.lean` shows that every allowed call keeps the children private and refines a specification in which values contain each other.
* C80: a corollary of C79 for `regrow`.
* C81–C85: `Float/Basic.lean` defines the numbers of a binary format and rounding to nearest as a predicate on functions `ℚ → ℚ` (any treatment of ties; `NearestEven` for IEEE) and shows that such a function exists.
  The other modules of `Float` model again, with a rounding after each operation, code that `Math` and `Spline` model in exact arithmetic: angles (C81, C82), modular ranges (C83), quantisation of spline nodes (C84), clocks (C85).
  Overflow to infinity, NaN and signed zeros are not modelled; nor is extended precision of intermediate results, except that `WrapAngle` is treated with turns in `float` and in `double`.
* C82: the same model; `WrapAngle` has a second rounding for the format of its intermediate results.
* C83: range.h with roundings. For a symmetric range the length 2a is exact, so one addition of it is exact by Sterbenz' lemma.
* C84: compact_spline_node.h with roundings; subtraction of floats has a relative error without exception, since small results are exact.
* C85: the accumulating statements of springs, ease curves and splines as folds over a list of frames.
* C86: `Spline/TwoSteps.lean` models the scratch buffer of the two-pass update byte by byte; the mask is the second half of it.
  Invariant of the conversion: the bytes of the mask that are still to be read are untouched while fewer than n/2 indices have been written.
  The NEON assembly is modelled under C125.
* C87: `Pipeline/Args.lean` models the parser of the command line over lists of strings, against a grammar of options (`Written`) and their meaning (`Opt.set`).
  Acceptance is by induction on the grammar, refusal by strong induction on the length of the list.
  Conversions of strings to numbers are parameters.
* C88: `Rig/Storage.lean` models the rig processor's array of pointers with an explicit heap: `delete` of an object that is not on the heap, `new` at an address in use and following null fail.
  Invariant `Fit`: the objects of valid motivators are non-null, distinct and exactly those on the heap; unused slots are null.
  The operations are shown to refine those of the processor layer (C09), from which the values of motivators are taken.
* C89: `Proc/Vector.lean` models the calls of vector motivators on top of the processor layer; what a setter or a frame does to one slot is a parameter.
  Each call is shown to refine a call on the values seen by users (C09); then a simulation relates the state in which `m` has values `l` to the one in which motivator `pair m k` has `[l[k]]`.
* C90: `Proc/Lineage.lean`: the specification `life` walks the list of calls backwards; induction over the calls on the refined state of C89.
  `Proc/Instances.lean` applies it to the slots of `Slot/*`.
* C91: `SplineProc/Playing.lean`: the slot invariant of C26 extended to the setters of position and rate, carried to programs by C90.
* C92: `Float/Overshoot.lean`: the model of C33 with every operation rounded; invariant over steps, with C83 for `Normalize`;
  `Float/OvershootPrograms.lean` carries it to programs by C90.
* C93: `Pipeline/Output.lean`: `RunAnimPipeline` and `OutputFlatBuffer` over a file system that can refuse, run full or stop; case analysis of the
  run, with C68 and C71 for what is written.
* C94: `Pipeline/DefiningFile.lean`: the writer of defining animations composed with C48 (what they are) and the reader of C71.
* C95: `Matrix/SplineDriver.lean`: the operations of C43 and C44 over the spline motivators of C41 instead of any motivator; C41 for one waypoint
  gives the value at the end of the blend and an invariant that carries over to the next blend.
* C96: `SplineProc/Forever.lean`: the invariants of C26 and C57 for repeating splines, with the bound of the position replaced by one of the
  strides: x is quantised only when a segment is left, and then the old position was on the spline.
* C97: `Matrix/Clip.lean`: the stages of C95 with splines (C96) and targets (C41) in the lists, without a bound on values, and with any time per
  stage; the invariant is that every motivator plays something in the right range.
* C98: `Rig/Clip.lean`: the bones of the rig model (C67) are the matrix and SQT motivators of C97; an invariant over programs says that
  every motivator is in working order, and the hierarchy (C45) and the average (C46) give the transforms.
* C99: `Float/Near.lean`, `Float/Cubic.lean`, `Float/SplineEval.lean`: `CubicCurve::Init`, `Evaluate`, `Derivative`, `ShiftLeft` and `CompactSpline::CalculatedSlowly` are modelled with every operation rounded to binary32 by any function that rounds to nearest; a flag says whether multiply-adds are fused in the evaluation. `tan` is any function from stored angles to floats. `Near k B e a b` says that `a` is `b` up to `k` rounding errors relative to `B` and an underflow of `e`; each operation has a lemma, the coefficients and Horner's scheme follow by composition, and the sums are bounded by the change of the curve. The search for the segment reuses the exact model through the quantised position. Not modelled: overflow, contraction in `Init`, the stepwise evaluator in single precision.
* C100: `Matrix/Children.lean`: the calls on children of `MatrixMotivator4f`, on the operations of `Matrix/Blend.lean`, with any update of the result and any one dimensional motivator. `After o es o'` says what a child is after the events that concern it; it holds for every step and composes, so it holds for every program. `C100_reaches` adds C97's account of spline motivators.
* C101: `Float/Play.lean`, `Float/PlayMove.lean`: one index of `BulkSplineEvaluator` with every operation rounded (model of C99 for the curves). Invariant: `Located` says on which piece the cursor is and between which positions; `step` shows that a frame keeps it and moves the position by the step up to `(E + D + g) / 2 ^ 20`; induction over the frames.
* C102: `Float/Blend.lean`, `Float/BlendMove.lean`: `CalculateBlendInit` and `BlendToSpline` with every operation rounded. `shifted` bounds the error of each coefficient of the shifted curve, `shifted_value` that of the curve; `Blending` is the invariant while the blend is played, and when it ends `Where` of C101 takes over.
* C103: `Slot/OvershootSettle.lean`: `step_right` and `step_wrong` say what one step does on the way to the target and away from it; `coming_phase` and `leaving_phase` bound the energy and the number of steps of each half of a swing, for steps of any lengths; a swing keeps at most 99/100 of the energy (`Coming.swings`), so that after some number of swings the thresholds are met (`Coming.snaps`). The argument is about a difference that a step changes in a given way (`Swings`); `Slot/OvershootRound.lean` shows that the difference the short way round is one: a step that is fast enough to pass the far side of the circle costs a fixed amount of energy.
* C104: `Slot/Twitch.lean`: `twitch` and `Settled1f` over the list of the slots of the processor; `C104_settles_back` is C103 from the state after the boost. `SplineProc/Twitch.lean`: the same for the record of a spline motivator; a spline with one node is a constant (`Constant`), which frames keep.
* C105: `Rig/Debug.lean`: the functions write lists of texts, numbers, commas and ends of lines; `table` splits them into cells. `C105_channels` is an induction over programs of C98.
* C106: `Rig/Rates.lean`: the loops of `SetPlaybackRates` are characterised index by index (`ratesLoop_spec`) for the reachable rigs of C64. `Rig/RatesBones.lean` says what the calls change in bones whose operations play splines.
* C107: `SplineProc/Ahead.lean`, `SplineProc/Again.lean` (splines that repeat): the accessors on the record of the evaluator, on top of the invariant of C96 (`C96_plays`); that the spline and the rate of a record are those of the last commands is an induction over the events (`play_source`).
* C108: `Matrix/Rest.lean`: an invariant that ties the end of each spline to what is left of it (`Bound`), set up by the merge of C43 with the players of C96/C107, preserved by frames; the greatest of these is `TimeRemaining`. `Rig/Rest.lean`: the same for each bone after the last call that started animations (`rig_bound`), and that equal bones give equal poses (`update_same`).
* C109: `Matrix/Pace.lean`, `Rig/Pace.lean`: states equal up to the rates go to states equal up to the rates (`paces_alike`). `SplineProc/Pause.lean`, `Rig/Pause.lean`: an invariant of evaluators (`Calm`: the position is not before the segment of its cubic) makes a frame of no length idempotent (`calm_fixed`), and equal bones give equal poses.
* C110: `Spline/Resample.lean`: the loop of `BulkEvaluate` with its 16-bit counter and an explicit outcome for not returning; row i of the output is the evaluator after i frames (`loop_eq`, `rows`), which by C26 is the curve. `CreateFromSpline` adds the rows as nodes (`create_eq`), and additions of increasing x append (`addAll_apart`).
* C111: `SplineProc/Whole.lean`: the whole processor with pointers, pool and contents of splines over the model of motivators (`State`, `step`); simulation (`Sim`) of single values (`solo`) by ownership (`Fine`, `Shift`) and by `SameSlot`; then C90 turns it into a statement on the life of each motivator, and C41 into one on targets.
* C112: `Util/Benchmark.lean`: 64-bit samples as natural numbers modulo 2^64, statistics as folds; programs by an invariant (`Inv`) that relates live objects to their age; the sum of squares by a homomorphism to `ZMod`.
* C113: `Proc/Verify.lean`: `VerifyInternalState` as a loop over blocks; it follows from the invariant of worlds (`WInv`), which holds at each call; the converse by induction over the blocks.
* C114: `Matrix/Nested.lean`: operations hold motivators of `Proc/*` at addresses that an arbitrary allocator chooses; `emplace_back` and `insert` move them one by one. Refinement to `Matrix/Blend.lean`, where the motivators are values: each call is followed with the invariant that operations of all matrix motivators have distinct addresses and that nothing is alive at other addresses.
* C115: `Rig/Stored.lean`: rigs hold addresses of matrix motivators of `Matrix/Nested.lean`; vectors of motivators move them when they grow. Refinement in two steps: the model is generic in the store of matrix motivators, so a simulation between stores (C114) lifts to rigs; then, for a store of values, each call is followed with the invariant that bones of all rigs have distinct addresses and that nothing is alive at other addresses.
* C116: `Slot/Params.lean`: tables as structures with optional tables inside, the three loaders as sequences of assignments to an arbitrary earlier configuration; composition with C33, C34, C41 and C103, and one frame written out with the numbers of the table.
* C117: `Curve/Graph.lean`: the scan over rows and columns as recursion over the sorted points that are left, with what lies in memory behind them as a parameter; invariant: the points left are sorted and not yet passed by the scan.
* C118: `Viewer/Play.lean`: one frame of the loop of viewer.cpp as a function from keys and state to the calls on engine and rig, with the rig an abstract machine; induction over frames.
* C119: `Viewer/Camera.lean`: camera and drags over the reals with the vectors and angles of `Math/Angle`; invariant over all drags: latitude within its limits, distance at least the near plane, longitude a valid angle.
* C120: `Viewer/Args.lean`: the two loops over `argv` as recursion over strings, with `atof`, `atoi` and fplutil's functions on names of files as parameters; the specification is a grammar of options and their effect.
* C121: `Rig/Wrap.lean`: everything that reads the clock of a rig, over integers of 32 bits with overflow either undefined or wrapping around; induction over frames modulo 2^32.
* C122: `Util/InitCopy.lean`: memory as a function from addresses to structs with their pointers; every program of constructors, copies and destructors; invariant: pointers point to the original.
* C123: `Spline/Packed.lean`: the loop that the comment of `Finalize` documents, over byte offsets; induction over the splines.
* C124: `Slot/TimeLeft.lean`: induction over programs of targets and frames; for ease motivators on top of C59.
* C125: `Spline/Neon.lean`: the instructions of the assembly as partial functions on registers and memory (`none` is a fault), the two functions as lists of instructions with a loop.
  One turn is executed symbolically; the loop is by induction on the turns left, with an invariant on registers and memory. Faults follow from a lemma that instructions neither map memory nor write other registers than their own.
* C126: `Math/RangeInt.lean`: the members of `RangeT` again, over integers, with truncating division and 0 for infinity.
* C127: `Math/RangeMore.lean`: the remaining members of `RangeT` and the comparison operators of `Angle`, over any ordered field.
* C128: `Slot/Linear.lean`: one index of the sample processor in exact arithmetic; induction over the frames.
* C129: `Curve/Retarget.lean`: one round is a linear map of distance and velocity; for frames up to half of the target time it multiplies a definite quadratic form by (1 - h/T)^4, for longer ones it is a contraction; the limit follows by squeezing. A moving target: the quadratic form is a length in the plane, so the triangle inequality bounds the lag. Frames of different lengths (`Curve/RetargetFrames.lean`): another quadratic form, 7e² + (e + Tv)², that a frame of length h makes smaller by the factor 1 - h/T at least.
* C130: `Util/Aligned.lean`: `posix_memalign` by its POSIX specification over an abstract heap; arithmetic of powers of two.
* C131: `Viewer/Skin.lean`: the vertex shaders as functions on 4x4 matrices; matrix algebra.
* C132: `Math/RangeUInt.lean`: natural numbers below 2^32 with wrapping sums and differences.
* C133: `Math/RangeDouble.lean`: rationals with rounding to double and to float as parameters.

Nothing in the list is considered inexpressible; the parts that stay outside the model (rounding, allocation failure,
threads, file I/O, flatbuffers decoding) are named in the notes of MANIFEST.json and in the section below.

## Disagreements found between code and property

Each item is a theorem about the model that shows the property, or a comment in the code, to be false.

* C15: `MotiveEngine::Reset` frees the processors but keeps `sorted_processors_`; the next `AdvanceFrame` or
  `Processor` call uses freed memory (`C15_reset_then_advance_is_use_after_free`, ...).
* C16: `Range::Normalize` is documented for values within one length of the range, but its assertion fails exactly
  at `start - length` (`C16_normalize_domain`).
* C30: `Roots` merges two close roots into a midpoint that is not a root (`C30_roots_inexact`); the zero quadratic
  divides by zero although the comment says it has no roots (`C30_zero_quadratic`); `RangesMatchingSign` fails its
  assertion when a root lies exactly on a limit (`C30_ranges_root_at_limit`).
* C31: the exact version is false because of the tolerance (`C31_tolerance_needed`); the property now names it.
* C32: with the split clamped to 10%-90% the second half can change curvature
  (`C32_curvature_fails_when_clamped`); a plain segment makes the code fail an assertion (`C32_assertion_fails`).
* C53: `SqrtReciprocalExponent` does not round down (`C53_sqrt_not_rounded_down`).
* C21: the header says a y is stored as the closest rung; it is rounded down (`C21_y_not_closest`).
* C22: adding A, B, A at one x leaves two equal consecutive nodes (`C22_equal_neighbours`).
* C23: exactly on a node the result depends on the guess (`C23_guess_matters_on_nodes`); both answers contain x.
* C24: a repeating spline whose end x is 0 divides by zero (`C24_zero_length_fails`).
* C25: within half an x_granularity of a node direct evaluation may extrapolate the cubic of the neighbouring
  segment (`C25_window_uses_neighbour`).
* C28: `Size` is not the smallest multiple for an even node count (`C28_size_not_smallest`); `ArraySize` is too small
  for three or more splines with an even number of nodes (`C28_arraySize_too_small`).
* C57: the blend to a new spline keeps the value but multiplies the reported derivative by the new playback rate
  (`C57_start_derivative`), ends with the derivative of the unscaled spline (`C57_end_derivative`), and "shortest path"
  is wrong for modular ranges that are not symmetric about zero (`C57_modular_not_shortest`).
* C58: after `ClearSplines`, the next frame overwrites the value with the position in the old segment
  (`C58_clear_loses_value`): the code passes `cubic_xs_[i]` where `ys_[i]` seems meant.
* C30: with an unlucky ratio of coefficients the scaling inside `Roots` loses both roots: `x^2 + 2^-30 x - 2^-30` has two
  roots but none is reported (`C30_roots_misscaled`).
* C37: a spring that starts exactly on its target and moves down jumps (`C37_jump_on_target`). At rest on the target with
  bias 1 it converts NaN to int (`C37_rest_bias_one`). `IterationX` forgets the conversion to external x for bias 1
  (`C37_iteration_x_bias_one`). A spring motivator that is advanced before its first target fails an assert
  (`C37_untargeted_frame_fails`).
* C59: with bias 1 an ease motivator runs away from its target quadratically (`C59_bias_one_runs_away`); after arrival
  with velocity the reported velocity is taken at the wrong time (`C59_velocity_after_arrival`). target.h:47-52 describes
  bias 0 as fly-out and 1 as fly-in; the code does the opposite (`C36_typical`: the speeding-up phase lasts `bias` of the
  time; `C59_bias_one_runs_away`: with bias 1 it never slows down).
* C33: `max_delta` is not a limit: when the velocity is zero after an update, the value moves by the unlimited amount
  (`C33_max_delta_fails`); it is per internal step, not per frame as one might read (`C33_max_delta_per_frame_fails`). A fresh
  motivator has value 0 even if 0 is outside its range (`C33_fresh_outside`), and if it wraps around the first frame may
  fail an assert (`C33_modular_range_without_zero_fails`).
* C34: with `max_delta_time <= 0`, the default, `AdvanceFrame` never ends (`C34_hangs_without_max_delta_time`).
* C35: being within both at-target thresholds is not enough to settle (`C35_within_thresholds_fails`); a modular range that
  starts exactly at 0 makes a motivator leave its target (`C35_modular_range_from_zero_fails`).
* C60: `OvershootMotiveProcessor::Differences` reads its own value from the start of the array instead of the motivator's
  index (`C60_difference_fails`).
* C61: the default `start_derivatives = nullptr` is dereferenced by const and ease motivators
  (`C61_default_derivatives_fails`); spring motivators ignore start derivatives (by reading, spring_data.h).
* C62: the comment on `Range::Lengthen` says percentages below 1 shorten; they lengthen
  (`C62_lengthen_below_one_is_longer`).
* C40: cloning a spline motivator of which some dimension has no spline yet dereferences null (`C40_clone_untargeted_fails`).
  A clone owns a spline with the capacity of its source, and `SetTarget` reuses it without checking the capacity
  (`C40_target_after_clone_fails`). The destructor deletes only pooled splines, so the splines of live motivators leak
  (`C40_destroy_leaks`).
* C41: the y-range of a modular target is too small for a single target by the positive, negative or farthest way
  (`C41_positive_direction_fails`: an assertion fails), and three targets by the closest way can leave the domain of
  `Normalize` (`C41_three_targets_fail`). If the first waypoint is less than half a grain away the value jumps
  (`C41_short_step_jumps`).
* C54: the constructor with one waypoint accepts a negative time (`C54_negative_time_accepted`), with which `SetTarget`
  fails (`C41_negative_time_fails`).
* C43: `BlendToOps` matches operations by id only. If an id stands for another type in the new list, the old type is kept
  (`C43_type_change_ignored`). The assertion against quaternion operations is only in the first loop, so such an operation
  gets into a matrix motivator that has no operations, and the next frame fails (`C43_quaternion_slips_in`).
* C44: components that have no operation are not negated, so the quaternions can stay in opposite hemispheres
  (`C44_missing_component_not_aligned`), and with a velocity at the start the path can leave the hemisphere
  (`C44_velocity_leaves_hemisphere`).
* C64: if an operation scales the axes differently before a rotation, the reported rotation is taken from a matrix that is no
  rotation (`C64_scale_before_rotation_not_rotation`).
* C65: when an SQT motivator goes from a uniform scale to a scale per axis, the old operation returns to 1 but still overrides
  the new one if its id is higher (`C65_old_uniform_scale_wins`).
* C46: `SetWeights` with more weights than there are animations divides by the sum of all of them (`C46_extra_weights`), so equal
  poses blend to another pose (`C46_extra_weights_wrong_pose`). If the first animation has no weight, quaternions of opposite sign can
  cancel, and the pose is undefined (`C46_unweighted_first_cancels`).
* C66: The end time of a repeating animation is the largest `MotiveTime`, to which `BlendToAnim` adds the
  current time: signed overflow (`C66_repeating_overflows`).
* C67: an animation with one bone is meant to animate the root only; on a rig with more bones it fails (`C67_one_bone_fails`).
  `BlendToAnims` copies the previous animation after having blended it to the first new one (`C67_copies_too_late`).
* C47: with more than 65535 different animations in a table the look-ups are wrong although `Load` succeeds (`C47_too_many`): indices have
  16 bits and the last one means "no animation".
* C48: with more than 256 animations of an object the defining animation can lack bones (`C48_too_many`), because the index of the animation
  with the most bones is kept in 8 bits. A second `Load` appends the operations again (`C48_second_load`). An operation that is constant in all
  animations is animated in the defining animation if its value is not between 0 and 1 (`C48_constant_animated`), because ranges start as
  `Range(1, 0)`; the comment in the code says that it is a constant. The animation with the most bones is assumed to contain the skeletons of the others,
  as the code says.
* C49: with three positions that do not wrap around, the search for a neighbour never ends if the middle position is close to the last one
  (`C49_three_positions`): the end of the search is computed as `start + delta * (n / 2 - 1)`, which is the start itself. If the path turns back the
  derivative is a division of zero by zero (`C49_turns_back`), and likewise all times if all positions are the same.
* C50: for zero keyframes `GetRequiredBufferSize` returns a positive size, but the conversion reads `nodes[-1]` (`C50_empty`).
* C51: a node that `PruneNodes` removes can be further from the remaining curve than the tolerance (`C51_prune_tolerance_fails`): the search
  for the end of a redundant stretch goes on after a failure and keeps the last success, and checks only nodes at the
  ends of each step. `AddCurve` truncates the times of samples that fall between ticks, so that the curve can miss the samples by more than the tolerance
  (`C51_add_curve_truncates`).
* C52: `SummableChannel` lets scale channels be added instead of multiplied (`C52_scales_are_added`). `SumChannels` is wrong after the end of the curve that ends
  first, if it ends with a slope (`C52_sum_of_unequal_spans_fails`). The default of the w-component of quaternions is taken to be 0 instead of 1
  (`C52_quaternion_component_dropped`). The ids and scales of the channels that anim_pipeline.cpp makes meet the conditions of `C52_prune_channels`; whether the
  curves of a bone cover the same time depends on the FBX file, since `PruneChannels` runs before `ExtendChannelsToTime`.
* C69: `FirstNonRepeatingBone` counts bones with a `uint8_t`: with 256 bones or more that all repeat, it does not end
  (`C69_too_many_bones`). The exporter rejects so many bones before calling it.
* C70: `CreateCompactSpline` casts the number of keys to 16 bits, so a channel of 65536 keys creates a spline without room and the first `AddNode`
  fails (`C70_too_many_nodes`).
* C71: with `root_bones_only`, an animated bone below a bone without channels is written with the index of its parent in the whole hierarchy, as
  the only bone of its animation. The assertion of `RigAnim::InitMatrixAnim` (parent before child) fails on every such file (`C71_roots_fail`);
  without assertions the rig would use a parent that does not exist.
* C71: `MatrixAnimFromFlatBuffers` takes the length of a float spline from `nodes()->end()`, the node after the last one, so reading any animation
  with a float spline reads outside the vector (`C71_float_spline_fails`).
* C72: `GetSplinesAndConstants` uses `kInvalidMatrixOperation` as "no alternate", so an operation of that kind answers every question that is not
  about a scale (`C72_invalid_answers`).
* C73: `CloneMotivator` returns without doing anything if the processor does not support cloning. The copy of a `MatrixOperation` does not notice,
  and uses `const_value_`, which is not the value of the source: the clone jumps with the next frame (`C73_child_lost`).
* C77: `PruneChannels` is not idempotent: it looks for a uniform scale before it sums channels, so with two scales of one axis a second call
  can find a uniform scale (`C77_two_scales_change`). The importer never creates such channels.
* C75: rows XZY, YZX, YXZ and ZXY of `kRotationOrderToChannelOrder` are not the reverse of the order that they name, unlike the others
  (`C75_rotation_order`); those of `kRotationOrderToChannelOrderInverted` are right. A local rotation and an equal post-rotation do not cancel
  (`C75_rotations_do_not_cancel`).
* C76: the loop of `AnimConst` checks the slopes of all keys but the last, so the left slope of the last key is ignored (`C76_last_slope_ignored`).
  A curve outside the time span of the take leaves its channel without nodes, which fails the assertion in `GatherFlatAnimForNode` (`C76_outside_fails`).
* C80: `MatrixData` and `SqtData` have an implicit move constructor, which is `noexcept` only if those of `mathfu::mat4`, `vec3` and `quat` are. If not, `data_.resize` copies,
  and a child that is driven by a processor without cloning silently becomes a constant when another matrix is created (`C80_lost_child`, `C80_fails_for_springs`).
* C36: a target that is closer than 2^-22 of the typical distance counts as reached, and the curve is bent away from it if
  the motivator is not moving towards it; with small velocities there is then no curve and an assert fails
  (`C36_close_target_fails`, with the concrete `C36_close_target_fails_witness`).
* C59: a single frame that is longer than what is left of the way to the target plus the settling motion leaves the value
  off the target, by half the acceleration times the square of the excess time (last clause of `C59_settles`); the next
  frame corrects it.
* C82: `WrapAngle` moves every positive angle a turn down and back, so that small angles are lost: `FromRadians(2^-30)` is 0, as is that angle times 1 (`C82_small_angle_lost`).
  For large arguments it does not wrap: `FromRadians(1e9f)` fails its assertion (`C82_large_fails`). `Clamp` does not return `*this` when nothing is clamped, although its comment says so (`C82_clamp_changes`).
* C83: for a range that is not symmetric `Length()` is rounded, and `Normalize` and `NormalizeWildValue` can fail their assertions on values within one length of the range, while `NormalizeCloseValue`,
  "still guaranteed to return a normalized value", returns one outside (`C83_asymmetric_fails`). `ModDiffPositive` can return the length itself (`C83_positive_reaches_length`).
* C84: a spline node keeps the order of its y rungs, but not of the values read back from them, when the range is small compared with its bounds: `Lerp` rounds more coarsely than a rung (`C84_y_order_lost`).
* C85: springs and ease curves that are not given a new target stop after hours: their clock is a `float` of milliseconds that absorbs frames (`C85_stops_after_hours`, `C85_stops`). Splines played slowly stop within a long segment.
* C86: `UpdateCubicXs_TwoSteps` puts the mask of n bytes into the last half of the buffer for n indices, because the mask is read while the indices are written.
  That is enough room for 16-bit indices only; `Index` has 32 bits, the mask begins in the middle and indices overwrite it from the n/2-th on.
  When all splines end in one frame some are not re-initialised, and with one spline it never is.
  `ConvertMaskToIndices` also casts the index to 16 bits.
  The function is for builds with NEON assembly and the assembly test; since `optimization_` is never set, plain builds use the one-pass function, which is correct.
* C87: `-a` and `-u` assign the verdict on their own value to `valid_args` instead of combining it with the verdict so far, so errors before them are forgiven: `anim_pipeline --bogus -u m x` is run.
  A wrong value of `-rt` is not skipped and is reported as an unknown parameter a second time; `--debug_time` sets the level of messages too, so it does not commute with `-v`.
* C89: `MotivatorXfTemplate`'s setters pass `kDimensions`, but `InitializeWithTargetShape` (vector_motivator.h:284-292) accepts any `dimensions`. With fewer, a setter writes into the slots of the motivator stored next to it and no assertion fails (`C89_extra_dimension_overwrites`).
* C91: a spline motivator initialised without a target or spline, on indices not used before, makes the next `AdvanceFrame` fail:
  `cubic_x_ends_` of a new index is 0 (bulk_spline_evaluator.cpp:43), so that any positive time step passes the end of its missing
  spline, and the search for the next segment dereferences it (`C91_untargeted_frame_fails`). On indices that a removed motivator has
  left, the same program runs (`C91_cleared_slots_run`).
* C92: in single precision, a modular overshoot motivator whose greatest step is as long as its range can fail the assertion of
  `Normalize` (range.h:110), which it cannot in exact arithmetic (`C92_longest_step_fails`).
* C92: an overshoot motivator whose steps are less than half a unit in the last place of its value never moves towards its target,
  however long it is given (`C92_slow_motion_stalls`): at 1000, a speed of `2 ^ -16` per tick with steps of one tick.
* C93: the pipeline ignores the results of `fwrite` and `fclose` (flat_anim.cpp:88-89): on a full disk it exits with status 0 and leaves a file that
  is cut short (`C93_write_errors_ignored`). It truncates the old file before it writes the new one (`C93_not_atomic`).
* C94: the tool for defining animations writes constant operations as splines without a value (defining_anim_pipeline.cpp:69-74), so that their
  constants are lost (`C94_constants_lost`); it never writes the flag for SQTs (line 85), so that a file with quaternions fails an assertion when it
  is read (`C94_quaternions_fail`); and `SaveFile` returns true whatever happens (`C94_unsaved`).
* C95: when an SQT motivator blends to the other hemisphere, it negates its components with `Current1f(-value, -velocity)` (sqt_data.h:266-278). A
  spline motivator makes a spline of one node of it, which has no velocity, so that the motion stops dead before the blend starts
  (`C95_align_stops`). C44 assumes motivators that keep the velocity.
* C98: the motivator of a bone is made for the kind of the first animation that is played on it. An animation of the other kind, with quaternions
  instead of rotations or the reverse, is accepted by `BlendToAnim`, and then the operations fail an assertion (`C98_kinds_do_not_mix`);
  without assertions the rotation is ignored. The storage of splines can fail where the model of C98 does not: after `BlendToAnims` has copied a
  motivator that plays a spline of two nodes, a target with two waypoints does not fit into the copy (`C40_target_after_clone_fails`).
* C99: the computed curve need not end at the value that was asked for: from 0 to 1 over a width of 3 it ends at 1 + 2^-22, over a width of 5 at 1 - 2^-24 (`C99_end_inexact`). `CalculatedSlowly` starts the search at segment 0, which also accepts its own end, so the second node, unlike the later ones, is evaluated at the end of a segment, and may be off, even out of the spline's y range (`C99_second_node_inexact`).
* C100: `SetChildTarget1f` is documented for every operation that was initialised with a `MotivatorInit`, but `MatrixOperationInit(id, type, init, initial_value)` leaves no motivator if the initial value is less than 1/1000 away from the default of the type, because `BlendToOp` in the constructor takes it for a constant; the assertion of `SetTarget1f` fails (`C100_initial_value_drops_motivator`). `child_index` is documented as the index passed to `Initialize`; `BlendToOps` inserts operations by id, so the index may then mean another operation (`C100_blend_renumbers`).
* C101: in single precision slow motion may stop altogether: a step of less than half a unit in the last place of the position on the segment is lost, so that a spline played at a positive rate never ends (`C101_slow_motion_stalls`). A spline that has run past its end is not brought back by a negative rate, since segments are only left at their end (`C101_ends` holds whatever is played later).
* C102: the blend is laid over the target spline by a shift of the cubic to the right by the position within the segment, and in single precision this cancels catastrophically when that position is many blend lengths (`C102_far_into_segment_breaks`): with a segment of a minute, a blend from its tenth second on over 64 ms makes the value jump by more than half of the range, and near its end one over 16 ms shoots off by three orders of magnitude. Nothing in the interface warns of long segments.
* C103: a motivator that is sent to the end of its range does not come to rest: it is stopped by the range, but its velocity is not reset, and with the difference 0 there is no acceleration that would reduce it (`C103_end_of_range_fails`). `Value()` stays on the target, but `Velocity()` never becomes 0, and `Settled` stays false; when the target is moved away, the motivator starts with the old velocity.
* C104: `Twitch` and `Settled1f::Settled` inherit the error of `Differences` (C60), so with more than one overshoot motivator a boost goes to the wrong ones (`C104_other_motivators_fail`). Also, `Current1f` is documented to reset the target to the new value and the velocity to 0 (target.h:96-97, 233-234); an overshoot motivator keeps its target and takes the velocity (`C104_current_keeps_target`), which `Twitch` needs. A spline motivator follows the documentation of `Current1f`: `Twitch` gives it no boost, but replaces what it was playing by a constant (`C104_spline_stops`), so that an animation that repeats and starts where it ends is stopped for good (`C104_stops_repeating_animation_fails`). Constant, spring and ease motivators inherit the empty `SetTargets` (vector_processor.h:86-87) and ignore `Twitch`.
* C105: `CsvValuesForDebugging` reads the values of a motivator's children in turn but names them by the operations of the defining animation. A motivator has only the operations of animations played so far, so until all operations of the definition have been played the columns are shifted (`C105_fewer_operations`), and if more have been played a vector is written past its end (`C105_more_operations`). Before the first animation the motivators are not valid (`C105_csv_before_playing`). `LocalTransformsForDebugging` names them by the operations of the current animation, which is wrong once an earlier animation had others (`C105_local_wrong_name`). Both compute the time from the end of the longest animation and the length of the first (`C105_time_since_longest`).
* C106: `SetPlaybackRates` does not check the number of rates against the number of animations; with more it goes past the end of the vector of motivators (`C106_extra_rates_fail`).
* C107: `TargetTime` of a spline motivator is documented as the time remaining, but ignores the playback rate: at a rate of 2 it says 9 although the target is reached after 5 (`C107_target_time_ignores_the_rate`); of matrices and rigs the documentation says this (include/motive/matrix_processor.h:67-71). It ignores blends too: half way through a blend it can say that the target was reached long ago (`C107_target_time_ignores_the_blend`). `TargetValue` and `Difference` ignore the `y_scale` and `y_offset` of the playback, so that a motivator at rest for ever can say that a difference is left (`C107_targets_ignore_the_offset`). `SplineTime` is documented to be 0 without a spline, but an assertion fails (`C107_no_spline_fails`).
* **The first paused frame can move (C109).** With a playback rate of 0 the position stays where it is, but when it is past the end of its segment `AdvanceFrame` looks for its segment again (`bulk_spline_evaluator.cpp:281-326`). A position up to half a grain past a node is rounded to the node, which is in the segments before and after it, and the guess is the segment after the current one, so that the same position is first in the one and then in the other. `C109_pause_jumps`: a motivator paused a quarter of a grain after a node changes its value from 0 to 5/32 in the first frame of the pause, and stays there (`C109_paused`).
* **Sampling at more than 65535 points never returns (C110).** The loop of `BulkEvaluate` counts with a `CompactSplineIndex`, which has 16 bits, up to a `size_t` (`compact_spline.cpp:248`). With 65536 points or more the counter wraps and the loop does not end: `C110_many_points`.
* **A spline cannot be created from a curve that overshoots (C110).** `InitFromSpline` lengthens the y range by 5 percent only, and a curve can leave its range by more between two nodes; then the assertion on the y range in `CompactSplineNode` fails: `C110_overshoot_fails`.
* **The documentation of `BulkYs` and `CreateFromSpline` is off by one (C110).** `compact_spline.h:505-506` says that the last row is at `start_x + delta_x * num_points`; it is at `start_x + delta_x * (num_points - 1)`. `compact_spline.h:371` says that `num_nodes` is the number of x-intervals; it is the number of nodes, one more (`C110_ys`, `C110_resample`).
* C112: benchmark.cpp: `Average` and `StandardDeviation` overflow (the TODOs at 70 and 84 say so): the average of two samples of 2^63 ticks is 0 (`C112_average_overflow`). The counters of the histogram have 16 bits: the graph of 65536 equal samples is blank (`C112_counters_overflow`). The loop that looks for the largest bucket starts at 1 (163), so that the first bucket, where most samples are, is not taken into account and its bar is cut off (`C112_first_bar`). The macro `FPL_BENCHMARK` (benchmark.h:62-64) names `fplbase::`, not `motive::`.
* C116: `min` and `max` of `ModularParameters` are documented as limits of `Motivator::Value()`, "Clamped or wrapped-around" (motive.fbs:34-40), but spline motivators without `modular` ignore them (flatbuffers.cpp:64-66, `C116_spline_limits_ignored_fails`); one with `modular` and `max` below `min` silently does not wrap around (`C116_spline_goes_straight`). Tables are optional in the schema, but `base` and `at_target` are followed without a check (`C116_missing_table_fails`). A `max_delta_time` of 0 is accepted and hangs the first frame (`C116_hangs`). The field `velocity` of `TwitchParameters` is part of a comment (motive.fbs:91), so files cannot say it.
* C117: `Graph2DPoints`, once the last point is drawn, looks at the element behind it before it checks that there is one (curve.cpp:423-424), for every list of points (`C117_reads_past_the_end`). If all points have the same x or y, as those of a constant curve have, it converts 0/0 to `int` (`C117_constant_curve_fails`). The row of the axis is computed with `size.y` (400) but that of points with `size.y - 1` (398), so that points with y = 0 are below the axis (`C117_axis_misplaced`), and there is always one line more than `size.y`.
* C118: the viewer prints that the left cursor key speeds up and the right one slows down (viewer.cpp:216-226), but it is the other way round (`C118_cursor_keys_reversed`). `-r 500` is accepted, but then the key for *faster* sets the rate to 10 (`C118_fast_rate_drops`), and with `-r 0.001` the key for *slower* makes it faster (`C118_slow_rate_rises`).
* C119: a horizontal drag of 600 pixels or more in one frame fails the assertion in the constructor of `Angle` (viewer.cpp:410, `C119_fast_drag_fails`). `CameraRight` (382-387) crosses the up vector with the *position* of the camera instead of its direction, so that the speed and direction of panning depend on where the target is, and dragging back does not return (`C119_pan_does_not_return`). The distance is chosen so that the model fits into 30 degrees to each side, but the field of view is 45 degrees in all, so that models are cut off (`C119_model_cut_off`). A model with only the point 0 gives distance 0 (`C119_point_model_fails`).
* C120: the viewer ignores options it does not know together with the argument that follows (viewer.cpp:253-292), so that a misspelt option swallows the name of a file; one of them, `-f`, is in its own usage message (`C120_unknown_option`). `-r nan` passes the check of limits (`C120_nan_rate`).
* C121: rig_processor.cpp:48-49 says that it does not matter if the clock wraps around, since only times relative to it are calculated. `TimeRemaining` (rig_data.h:210) compares an absolute time with `kMotiveTimeEndless`: each animation that ends can be started at a moment at which it is said to be endless (`C121_said_to_be_endless`), and one that repeats is said to be endless only if it is started at 0 (`C121_repeating`). By the standard the overflow is undefined behaviour (`C121_long_programs_overflow`), also in the processors of matrices and SQTs, where the clock is never read.
* C122: `SimpleInitTemplate` has pointers to its own members but no copy constructor (simple_init_template.h:62-82), so a copy points into the original, and once that is destroyed, as when a `std::vector` of such structs grows, initialising a motivator from it reads freed memory (`C122_original_gone`, `C122_vector_grows`).
* C123: the loop in the comment of `Finalize` (compact_spline.h:163-195) calls functions that do not exist (`CreateInPlaceMaxNodes`, `num_splines`, `max_splines`), stops only when no place is left although `AddNode` may need two (`C123_documented_check_fails`: the assertion fails, and without assertions the node behind the buffer is written), and returns the number of bytes left as the number consumed (`C123_documented_result`).
* C124: `SetTargetWithShape` of the spring processor does not set `target_time` (spring_processor.cpp:67-83), so `TargetTime` of a spring motivator is minus the time since the last target (`C124_spring_time`): 0 when it sets off, negative while it swings. `MotiveShape` of spring and constant motivators is always empty. `TargetTime` of an ease motivator is negative after arrival (`C124_ease_negative`); that of an overshoot motivator always fails an assertion (overshoot_processor.cpp:83-87).
* C125: `EvaluateCubics_Neon` never advances the pointers to the cubics, so with more than four splines all are evaluated with the first four cubics (`C125_evaluate_first_four`, `C125_evaluate_wrong`).
  `bulk_spline_evaluator.cpp` declares both functions with other arguments than the assembly reads (no playback rates; ranges of y in addition), so that every call from C++ faults (`C125_declared_update_faults`, `C125_declared_evaluate_faults`).
  Both loops work in groups of four and write past the end of the vectors otherwise, also when there are no splines (`C125_update_past_end`); they demand vectors aligned to 16 or 32 bytes (`C125_unaligned_faults`, `C125_unaligned_cubics_fault`); `r4`, `r5` and `r10` are not saved although they belong to the caller.
  Since the constructor sets `optimization_` to `kNoOptimizations` and nothing else writes it (bulk_spline_evaluator.h:42), only builds with `MOTIVE_ASSEMBLY_TEST` make these calls.
* C126: `std::numeric_limits<int>::infinity()` is 0, so for `RangeInt` (range.h:518) `Full()` contains only 0 and `Empty()` contains it too (`C126_full`, `C126_empty`), `Covers` always includes 0 (`C126_covers`), `IndexOfShortest` always returns 0 (`C126_shortest_is_first`) and `ClampToClosest` never clamps (`C126_closest_does_not_clamp`). `Percent` divides integers (`C126_percent_is_zero`), and `Middle` is rounded towards zero, not down as documented (`C126_middle_rounded_up`). `ModularAdjustment` (175-179) mixes integers with `0.0f`: lengths of more than 24 bits are rounded, and values normalised to others that are not equivalent (`C126_normalise_wide`).
* C127: `operator*` of a range (range.h:276) multiplies both bounds, so multiplying a range by a negative number gives an invalid range that contains nothing (`C127_scale_negative`).
* C128: the linear processor of the guide (linear_processor.cpp:65-67) does not clamp its interpolation: a frame that passes the target time leaves the value beyond the target until the next frame (`C128_overshoots`). `Current1f` does not change the target, so the value is lost in the next frame (`C128_current_jumps_back`). `TargetTime` looks at the first dimension only (118-119, `C128_target_time_of_first`).
* C129: the duck of the guide's first example (duck2f.cpp:72-89) renews its target in every frame. It is then never at rest on the target (`C129_never_there`); when its 1000 are over a sixth of the way is left, and it goes past the target before it settles (`C129_duck`).
* C130: `AlignedAlloc` (util.h:31-40) takes the *size* of `max_align_t` for its alignment. Where that is no power of two (32 bit x86) `posix_memalign` refuses, its result is ignored, and every block is null (`C130_null_on_x86`).
* C131: the shader of the viewer for meshes with bones (viewer.cpp:159) turns normals with the camera, but not with the bones; the one without bones (111) turns them with neither (`C131_normals_stay`, `C131_normals_wrong`).
* C132: for `RangeUInt` (range.h:519) `Middle` lies before the range if the bounds add up to 2^32 or more (`C132_middle_outside`), `DistanceFrom` is nearly 2^32 just below a range (`C132_distance_below`), direct differences are never negative (`C132_direct_difference`) and `Covers` always starts at 0 (`C132_covers_from_zero`).
* C133: `Normalize` (range.h:107-111) keeps its result in a `float` for every type. A `RangeDouble` so loses digits of values that are in the range (`C133_changed`), and the assertion fails for the end of a range whose nearest float is above it (`C133_end_fails`, `C133_fails`). With bounds that are floats it fails for values just above the start (`C133_float_bounds`, `C133_start_fails`).
