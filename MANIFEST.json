{
 "claims": [
  {
   "property": "C01",
   "status": "proved",
   "theorems": [
    "Motive.Alloc.C01_blocks_tile"
   ],
   "note": ""
  },
  {
   "property": "C02",
   "status": "proved",
   "theorems": [
    "Motive.Alloc.C02_alloc_best_fit"
   ],
   "note": ""
  },
  {
   "property": "C03",
   "status": "proved",
   "theorems": [
    "Motive.Alloc.C03_defragment_terminates"
   ],
   "note": ""
  },
  {
   "property": "C04",
   "status": "proved",
   "theorems": [
    "Motive.Alloc.C04_defragment_no_holes"
   ],
   "note": ""
  },
  {
   "property": "C05",
   "status": "proved",
   "theorems": [
    "Motive.Alloc.C05_defragment_moves_data",
    "Motive.Alloc.C05_refines_buffers"
   ],
   "note": ""
  },
  {
   "property": "C06",
   "status": "proved",
   "theorems": [
    "Motive.Proc.C06_handles_sane",
    "Motive.Proc.C06_checks_exact"
   ],
   "note": ""
  },
  {
   "property": "C07",
   "status": "proved",
   "theorems": [
    "Motive.Proc.C07_disjoint_storage",
    "Motive.Proc.C07_no_leak"
   ],
   "note": ""
  },
  {
   "property": "C08",
   "status": "proved",
   "theorems": [
    "Motive.Proc.C08_compaction_invisible"
   ],
   "note": ""
  },
  {
   "property": "C09",
   "status": "proved",
   "theorems": [
    "Motive.Proc.C09_non_interference"
   ],
   "note": ""
  },
  {
   "property": "C10",
   "status": "proved",
   "theorems": [
    "Motive.Proc.C10_move_assign",
    "Motive.Proc.C10_move_construct"
   ],
   "note": ""
  },
  {
   "property": "C100",
   "status": "proved",
   "theorems": [
    "Motive.Matrix4.C100_children",
    "Motive.Matrix4.C100_result",
    "Motive.Matrix4.C100_matrix",
    "Motive.Matrix4.C100_read",
    "Motive.Matrix4.C100_runs",
    "Motive.Matrix4.C100_matrix_runs",
    "Motive.Matrix4.C100_initialize",
    "Motive.Matrix4.C100_reaches",
    "Motive.Matrix4.C100_initial_value_drops_motivator",
    "Motive.Matrix4.C100_blend_renumbers"
   ],
   "note": "Real arithmetic. The update of the result is a parameter; for SQT motivators it may fail (a quaternion of length 0, C44). C100_reaches: frames of at most 32 s."
  },
  {
   "property": "C101",
   "status": "proved",
   "theorems": [
    "Motive.Float.Hermite.C101_play",
    "Motive.Float.Hermite.C101_ends",
    "Motive.Float.Hermite.C101_samples",
    "Motive.Float.Hermite.C101_slow_motion_stalls"
   ],
   "note": "Rounding to nearest, exponents unbounded above; the operations of Init are not fused. Blending, modular ranges and negative rates are not covered."
  },
  {
   "property": "C102",
   "status": "proved",
   "theorems": [
    "Motive.Float.Hermite.C102_blend",
    "Motive.Float.Hermite.C102_start",
    "Motive.Float.Hermite.C102_far_into_segment_breaks"
   ],
   "note": "Rounding to nearest, exponents unbounded above; the operations of Init are not fused. Modular ranges are not covered."
  },
  {
   "property": "C103",
   "status": "proved",
   "theorems": [
    "Motive.Slot.OvershootSlot.C103_settles",
    "Motive.Slot.OvershootSlot.C103_round_settles",
    "Motive.Slot.OvershootSlot.C103_end_of_range_fails",
    "Motive.Slot.OvershootSlot.C103_long_steps_fail",
    "Motive.Slot.OvershootSlot.C103_undamped_fails"
   ],
   "note": "Exact arithmetic over any Archimedean ordered field."
  },
  {
   "property": "C104",
   "status": "partial",
   "theorems": [
    "Motive.Slot.C104_twitch_partial",
    "Motive.Slot.C104_settles_back",
    "Motive.Slot.C104_round_settles_back",
    "Motive.Slot.C104_settled_partial",
    "Motive.Slot.C104_other_motivators_fail",
    "Motive.Slot.C104_current_keeps_target",
    "Motive.Targets.C104_spline_left_alone",
    "Motive.Targets.C104_spline_stops",
    "Motive.Targets.C104_modular_spline_stops",
    "Motive.Targets.C104_stops_repeating_animation_fails"
   ],
   "note": "Proved of the overshoot motivator whose slots come first in the processor; false of the others (C104_other_motivators_fail) and of spline motivators, which get no boost but are stopped (C104_spline_stops, C104_stops_repeating_animation_fails). Constant, spring and ease motivators ignore Twitch, because their processors do not override SetTargets."
  },
  {
   "property": "C105",
   "status": "partial",
   "theorems": [
    "Motive.Rig.C105_channels",
    "Motive.Rig.C105_csv_partial",
    "Motive.Rig.C105_csv_time",
    "Motive.Rig.C105_local_partial",
    "Motive.Rig.C105_csv_overflows",
    "Motive.Rig.C105_csv_before_playing",
    "Motive.Rig.C105_more_operations",
    "Motive.Rig.C105_fewer_operations",
    "Motive.Rig.C105_time_since_longest",
    "Motive.Rig.C105_local_wrong_name",
    "Motive.Rig.C105_names_differ"
   ],
   "note": "Proved if the animations played so far have exactly the operations of the definition; false otherwise (C105_more_operations, C105_fewer_operations, C105_time_since_longest, C105_local_wrong_name). The formatting of numbers is left out."
  },
  {
   "property": "C106",
   "status": "proved",
   "theorems": [
    "Motive.Rig.C106_rates",
    "Motive.Rig.C106_extra_rates_fail",
    "Motive.Rig.C106_rate",
    "Motive.Rig.C106_repeating",
    "Motive.Rig.C106_before_animation",
    "Motive.Rig.C106_splines_repeat",
    "Motive.Rig.C106_splines_rate"
   ],
   "note": "What the operations of a bone do with a rate is C91 and C96."
  },
  {
   "property": "C107",
   "status": "partial",
   "theorems": [
    "Motive.SplineProc.C107_reads",
    "Motive.SplineProc.C107_motivators_read",
    "Motive.SplineProc.C107_greatest",
    "Motive.SplineProc.C107_target_time_partial",
    "Motive.SplineProc.C107_target_time_repeating",
    "Motive.SplineProc.C107_arrives_partial",
    "Motive.SplineProc.C107_set_time",
    "Motive.SplineProc.C107_no_spline_fails",
    "Motive.SplineProc.C107_target_time_ignores_the_rate",
    "Motive.SplineProc.C107_targets_ignore_the_offset",
    "Motive.SplineProc.C107_target_time_ignores_the_blend"
   ],
   "note": "TargetTime is right for a rate of 1 and without blends only, and TargetValue and Difference for splines that are neither scaled nor shifted: the negations are proved."
  },
  {
   "property": "C108",
   "status": "proved",
   "theorems": [
    "Motive.Matrix4.C108_counts_down",
    "Motive.Matrix4.C108_rest",
    "Motive.Rig.C108_rig_counts_down",
    "Motive.Rig.C108_rig_rests"
   ],
   "note": "The time of two units covers that TargetTime is rounded down and that the last node is reached after, not at, the end. At a rate r the animation needs TimeRemaining / r, as the documentation of matrices says; parts that are driven by targets are played at a rate of 1. Splines are over after the end of their last node, grains of at most 1 (splines of up to 65535 units)."
  },
  {
   "property": "C109",
   "status": "proved",
   "theorems": [
    "Motive.Rig.C109_rates",
    "Motive.Rig.C109_paused_rig",
    "Motive.SplineProc.C109_paused",
    "Motive.SplineProc.C109_pause_jumps"
   ],
   "note": "That the pose stays as it is from the frame before the pause is false of the code: C109_pause_jumps. Rates of blends are not negative."
  },
  {
   "property": "C11",
   "status": "proved",
   "theorems": [
    "Motive.Proc.C11_clone"
   ],
   "note": ""
  },
  {
   "property": "C110",
   "status": "proved",
   "theorems": [
    "Motive.Splines.C110_ys",
    "Motive.Splines.C110_many_points",
    "Motive.Splines.C110_resample_ends",
    "Motive.Splines.C110_resample",
    "Motive.Splines.C110_resample_succeeds",
    "Motive.Splines.C110_overshoot_fails"
   ],
   "note": "That sampling always returns is false of the code for more than 65535 points (C110_many_points); that a spline can be created from every spline is false for curves that leave their y range (C110_overshoot_fails). Points within half a grain of a node may be taken from either side of it."
  },
  {
   "property": "C111",
   "status": "proved",
   "theorems": [
    "Motive.SplineProc.Whole.C111_life",
    "Motive.SplineProc.Whole.C111_same_life",
    "Motive.SplineProc.Whole.C111_failures",
    "Motive.SplineProc.Whole.C111_targets_are_followed",
    "Motive.SplineProc.Whole.C111_modular_targets_are_followed"
   ],
   "note": "Times and values are real numbers. The splines of the caller do not change while they are played. C111_failures assumes that they have room for seven nodes (kDefaultMaxNodes): a clone of a smaller one gives the motivator a local spline that a target of three nodes may not fit in."
  },
  {
   "property": "C112",
   "status": "proved",
   "theorems": [
    "Motive.Bench.C112_samples",
    "Motive.Bench.C112_report",
    "Motive.Bench.C112_output",
    "Motive.Bench.C112_average_overflow",
    "Motive.Bench.C112_counters_overflow",
    "Motive.Bench.C112_first_bar"
   ],
   "note": "The square root is that of real numbers; the text of the report is not modelled. C112_average_overflow, C112_counters_overflow and C112_first_bar are about what the bounds leave out."
  },
  {
   "property": "C113",
   "status": "proved",
   "theorems": [
    "Motive.Proc.C113_checks_never_fail",
    "Motive.Proc.C113_state_verified",
    "Motive.Proc.C113_checks_are_complete"
   ],
   "note": "The operations with the checks are defined beside those without (World.removeChecked, ...)."
  },
  {
   "property": "C114",
   "status": "proved",
   "theorems": [
    "Motive.Matrix4.Nested.C114_own_motivators",
    "Motive.Matrix4.Nested.C114_memory_is_invisible",
    "Motive.Matrix4.Nested.C114_no_leaks",
    "Motive.Matrix4.Nested.C114_time_remaining",
    "Motive.Matrix4.Nested.C114_as_if_alone",
    "Motive.Matrix4.Nested.C114_kinds"
   ],
   "note": "The slots of the matrix processor itself are values (C39 and C90 are about those); those of the processors that the operations use are not."
  },
  {
   "property": "C115",
   "status": "proved",
   "theorems": [
    "Motive.Rig.Stored.C115_own_bones",
    "Motive.Rig.Stored.C115_memory_is_invisible",
    "Motive.Rig.Stored.C115_no_leaks",
    "Motive.Rig.Stored.C115_as_if_alone"
   ],
   "note": "The slots of the rig processor itself are values (C39 and C90 are about those); the matrix motivators of bones are those of C114, and the motivators of their operations those of the processors. SetPlaybackRate and SetRepeating skip invalid motivators, as matrix_motivator.h:164-174 does."
  },
  {
   "property": "C116",
   "status": "partial",
   "theorems": [
    "Motive.Slot.C116_overshoot_keeps_limits",
    "Motive.Slot.C116_overshoot_wraps",
    "Motive.Slot.C116_overshoot_settles",
    "Motive.Slot.C116_overshoot_frame",
    "Motive.Slot.C116_settled",
    "Motive.Slot.C116_missing_table_fails",
    "Motive.Slot.C116_hangs",
    "Motive.Slot.C116_spline_goes_straight",
    "Motive.Slot.C116_spline_wraps",
    "Motive.Slot.C116_spline_limits_ignored_fails",
    "Motive.Slot.C116_spline_missing_table_fails"
   ],
   "note": "The claim is false in three ways, each proved: a table without base or at_target makes the loader follow a null pointer, a max_delta_time that is not positive makes the first frame hang, and min and max have no effect on spline motivators that do not wrap around. Proved: everything else in the statement. Numbers are exact; wrap-around is for ranges symmetric about 0."
  },
  {
   "property": "C117",
   "status": "partial",
   "theorems": [
    "Motive.Graph.C117_draws_partial",
    "Motive.Graph.C117_curve_partial",
    "Motive.Graph.C117_reads_past_the_end",
    "Motive.Graph.C117_constant_curve_fails",
    "Motive.Graph.C117_axis_misplaced"
   ],
   "note": "The stars are proved right if the memory behind the points can be read and does not look like a point of the drawing. Otherwise the claim is false: every drawing reads past the end of its array of points (C117_reads_past_the_end), constant curves convert 0/0 to an integer, and the horizontal axis is misplaced. Numbers are exact."
  },
  {
   "property": "C118",
   "status": "partial",
   "theorems": [
    "Motive.Viewer.C118_pausing",
    "Motive.Viewer.C118_single_step",
    "Motive.Viewer.C118_in_turn",
    "Motive.Viewer.C118_next",
    "Motive.Viewer.C118_plays_through",
    "Motive.Viewer.C118_rate_reaches_rig",
    "Motive.Viewer.C118_rate_range",
    "Motive.Viewer.C118_rate_keys",
    "Motive.Viewer.C118_no_animation",
    "Motive.Viewer.C118_cursor_keys_reversed",
    "Motive.Viewer.C118_fast_rate_drops",
    "Motive.Viewer.C118_slow_rate_rises",
    "Motive.Viewer.C118_starts_while_paused"
   ],
   "note": "Pausing, stepping and the order of animations are proved for all sessions and any rig. False of the code: the message of controls names the cursor keys the wrong way round (C118_cursor_keys_reversed); rates that the command line accepts but the keys do not reach jump at the first key (C118_fast_rate_drops, C118_slow_rate_rises)."
  },
  {
   "property": "C119",
   "status": "partial",
   "theorems": [
    "Motive.Viewer.C119_turn",
    "Motive.Viewer.C119_orbit",
    "Motive.Viewer.C119_zoom_and_pan",
    "Motive.Viewer.C119_pan_right",
    "Motive.Viewer.C119_start_depth",
    "Motive.Viewer.C119_fast_drag_fails",
    "Motive.Viewer.C119_point_model_fails",
    "Motive.Viewer.C119_pan_does_not_return",
    "Motive.Viewer.C119_model_cut_off"
   ],
   "note": "Proved for drags below 600 pixels per frame, beyond which an assertion fails, and models that are more than the point 0. False of the code: panning back does not return (C119_pan_does_not_return) and the model can be cut off at the start (C119_model_cut_off). Numbers are exact."
  },
  {
   "property": "C12",
   "status": "proved",
   "theorems": [
    "Motive.Proc.C12_destroy_resets"
   ],
   "note": ""
  },
  {
   "property": "C120",
   "status": "partial",
   "theorems": [
    "Motive.Viewer.CommandLine.C120_accepts",
    "Motive.Viewer.CommandLine.C120_safe",
    "Motive.Viewer.CommandLine.C120_refuses",
    "Motive.Viewer.CommandLine.C120_unknown_option",
    "Motive.Viewer.CommandLine.C120_unknown_option_witness",
    "Motive.Viewer.CommandLine.C120_nan_rate"
   ],
   "note": "Lines written as the usage message says are proved to be accepted and to have that effect. False of the code: unknown options are ignored together with their value (C120_unknown_option), among them -f, which the message documents, and a rate that is not a number passes the check of limits (C120_nan_rate)."
  },
  {
   "property": "C121",
   "status": "partial",
   "theorems": [
    "Motive.Rig.Wrap.C121_debug_times",
    "Motive.Rig.Wrap.C121_time_remaining",
    "Motive.Rig.Wrap.C121_short_programs",
    "Motive.Rig.Wrap.C121_said_to_be_endless",
    "Motive.Rig.Wrap.C121_repeating",
    "Motive.Rig.Wrap.C121_long_programs_overflow"
   ],
   "note": "In arithmetic that wraps around, as the comment in the code assumes, proved for the times in debugging output. False for TimeRemaining, which compares an absolute time with kMotiveTimeEndless (C121_said_to_be_endless, C121_repeating). By the standard, signed overflow is undefined, and every program reaches it (C121_long_programs_overflow); shorter programs are proved not to."
  },
  {
   "property": "C122",
   "status": "partial",
   "theorems": [
    "Motive.InitCopy.C122_reads_original",
    "Motive.InitCopy.C122_own_values_partial",
    "Motive.InitCopy.C122_copy_partial",
    "Motive.InitCopy.C122_original_gone",
    "Motive.InitCopy.C122_vector_grows",
    "Motive.InitCopy.C122_reads_other"
   ],
   "note": "Proved for structs that are not copies, and for copies while the original lives. False otherwise: a copy points into the original (C122_original_gone, C122_vector_grows, C122_reads_other)."
  },
  {
   "property": "C123",
   "status": "partial",
   "theorems": [
    "Motive.Splines.Packed.C123_packed",
    "Motive.Splines.Packed.C123_closed",
    "Motive.Splines.Packed.C123_one_free_place",
    "Motive.Splines.Packed.C123_documented_check_fails",
    "Motive.Splines.Packed.C123_documented_result"
   ],
   "note": "The first half is proved for all buffers. The second half, on which the loop in the comment of Finalize rests, is false: AddNode may need two places (C123_one_free_place, C123_documented_check_fails). The comment also returns the bytes that are left as the bytes consumed (C123_documented_result)."
  },
  {
   "property": "C124",
   "status": "partial",
   "theorems": [
    "Motive.Slot.C124_ease_time",
    "Motive.Slot.C124_ease_shape",
    "Motive.Slot.C124_ease_negative",
    "Motive.Slot.C124_spring_time",
    "Motive.Slot.C124_spring_not_there"
   ],
   "note": "Proved of ease motivators until they arrive; afterwards the time left is negative (C124_ease_negative). False of spring motivators, which always report minus the time since the last target, and the empty shape (C124_spring_time, C124_spring_not_there)."
  },
  {
   "property": "C125",
   "status": "partial",
   "theorems": [
    "Motive.Spline.Neon.C125_update_partial",
    "Motive.Spline.Neon.C125_update_past_end",
    "Motive.Spline.Neon.C125_update_loses_registers",
    "Motive.Spline.Neon.C125_evaluate_first_four",
    "Motive.Spline.Neon.C125_evaluate_partial",
    "Motive.Spline.Neon.C125_evaluate_wrong",
    "Motive.Spline.Neon.C125_evaluate_loses_register",
    "Motive.Spline.Neon.C125_declared_update_faults",
    "Motive.Spline.Neon.C125_declared_evaluate_faults",
    "Motive.Spline.Neon.C125_unaligned_faults",
    "Motive.Spline.Neon.C125_unaligned_cubics_fault"
   ],
   "note": "Proved of the update for documented arguments and aligned arrays with room for whole groups of four, and of the evaluation for at most four splines. False otherwise: more splines are evaluated with the first four cubics, memory past the end is written, r4, r5 and r10 are lost, arrays that are not aligned fault, and the arguments that C++ passes are not those the assembly reads, so that its calls always fault. Plain builds never get there, since optimization_ is never set."
  },
  {
   "property": "C126",
   "status": "partial",
   "theorems": [
    "Motive.Math.RangeInt.C126_normalise_partial",
    "Motive.Math.RangeInt.C126_normalise_wide",
    "Motive.Math.RangeInt.C126_middle",
    "Motive.Math.RangeInt.C126_longest",
    "Motive.Math.RangeInt.C126_middle_rounded_up",
    "Motive.Math.RangeInt.C126_full",
    "Motive.Math.RangeInt.C126_empty",
    "Motive.Math.RangeInt.C126_covers",
    "Motive.Math.RangeInt.C126_covers_too_much",
    "Motive.Math.RangeInt.C126_shortest_is_first",
    "Motive.Math.RangeInt.C126_closest_does_not_clamp",
    "Motive.Math.RangeInt.C126_percent_is_zero"
   ],
   "note": "Proved of NormalizeWildValue for lengths below 2^24 (false beyond, C126_normalise_wide), IndexOfLongest, and of Middle up to the direction of rounding. False of the rest, because std::numeric_limits<int>::infinity() is 0 and division truncates; what these functions return instead is proved."
  },
  {
   "property": "C127",
   "status": "partial",
   "theorems": [
    "Motive.Math.Range.C127_split",
    "Motive.Math.Range.C127_tolerance",
    "Motive.Math.Range.C127_scale_partial",
    "Motive.Math.Range.C127_scale_negative",
    "Motive.Math.Range.C127_create_valid",
    "Motive.Math.Angle.C127_order",
    "Motive.Math.Angle.C127_equal",
    "Motive.Math.Angle.C127_order_not_kept_by_turns"
   ],
   "note": "Exact arithmetic. False of multiplying a range by a negative number: the result is invalid (C127_scale_negative)."
  },
  {
   "property": "C128",
   "status": "partial",
   "theorems": [
    "Motive.Slot.Linear.C128_linear_partial",
    "Motive.Slot.Linear.C128_linear_from_current_partial",
    "Motive.Slot.Linear.C128_rests",
    "Motive.Slot.Linear.C128_overshoots",
    "Motive.Slot.Linear.C128_current_jumps_back",
    "Motive.Slot.Linear.C128_target_time_of_first"
   ],
   "note": "Proved while the frames do not pass the target time, and from the frame after. False of the frame that passes it (C128_overshoots), of Current1f (C128_current_jumps_back) and of the time left of several dimensions (C128_target_time_of_first). Exact arithmetic."
  },
  {
   "property": "C129",
   "status": "partial",
   "theorems": [
    "Motive.Curve.Retarget.C129_energy",
    "Motive.Curve.Retarget.C129_arrives",
    "Motive.Curve.Retarget.C129_never_there",
    "Motive.Curve.Retarget.C129_duck",
    "Motive.Curve.Retarget.C129_follows",
    "Motive.Curve.Retarget.C129_follows_rounded",
    "Motive.Curve.Retarget.C129_any_frames"
   ],
   "note": "The limit and the bound are proved, the first with the exact rate, for one dimension in exact arithmetic without the rounding of the nodes to 16 bits; C129_follows_rounded allows for an error in every frame, such as that rounding, whose size it takes as given. The second sentence is false (C129_never_there, C129_duck)."
  },
  {
   "property": "C13",
   "status": "proved",
   "theorems": [
    "Motive.Engine.C13_one_per_type",
    "Motive.Engine.C13_same_processor",
    "Motive.Engine.C13_first_registration_wins",
    "Motive.Engine.C13_null_iff_unregistered"
   ],
   "note": ""
  },
  {
   "property": "C130",
   "status": "partial",
   "theorems": [
    "Motive.Util.C130_aligned_partial",
    "Motive.Util.C130_null_on_x86",
    "Motive.Util.C130_other_alignments"
   ],
   "note": "Proved for alignments that are powers of two on platforms where sizeof(max_align_t) is a power of two; false of others (C130_null_on_x86, C130_other_alignments). posix_memalign is modelled by its specification; the branch for Visual C++ is not modelled."
  },
  {
   "property": "C131",
   "status": "partial",
   "theorems": [
    "Motive.Viewer.Skin.C131_mean",
    "Motive.Viewer.Skin.C131_moves_with_bones",
    "Motive.Viewer.Skin.C131_rigid",
    "Motive.Viewer.Skin.C131_without_bones",
    "Motive.Viewer.Skin.C131_normals_stay",
    "Motive.Viewer.Skin.C131_normals_wrong"
   ],
   "note": "Proved of positions, in exact arithmetic. False of normals (C131_normals_stay, C131_normals_wrong). Which transforms reach the shader is up to FPLBase."
  },
  {
   "property": "C132",
   "status": "partial",
   "theorems": [
    "Motive.Math.RangeUInt.C132_works_partial",
    "Motive.Math.RangeUInt.C132_middle_outside",
    "Motive.Math.RangeUInt.C132_distance_below",
    "Motive.Math.RangeUInt.C132_direct_difference",
    "Motive.Math.RangeUInt.C132_covers_from_zero"
   ],
   "note": "Proved of Length, Clamp, Middle of bounds with a sum below 2^32 and the distance of values above the range; false of the rest, and what these functions return instead is proved."
  },
  {
   "property": "C133",
   "status": "partial",
   "theorems": [
    "Motive.Math.RangeDouble.C133_normalise_partial",
    "Motive.Math.RangeDouble.C133_nearest_float",
    "Motive.Math.RangeDouble.C133_changed",
    "Motive.Math.RangeDouble.C133_end_fails",
    "Motive.Math.RangeDouble.C133_rounds",
    "Motive.Math.RangeDouble.C133_fails",
    "Motive.Math.RangeDouble.C133_float_bounds",
    "Motive.Math.RangeDouble.C133_start_fails"
   ],
   "note": "Proved if the result is a float. False otherwise: the result is rounded to float, so values in the range change and the assertion can fail at both ends of the range."
  },
  {
   "property": "C14",
   "status": "proved",
   "theorems": [
    "Motive.Engine.C14_advance_order"
   ],
   "note": ""
  },
  {
   "property": "C15",
   "status": "partial",
   "theorems": [
    "Motive.Engine.C15_reset_then_advance_is_use_after_free",
    "Motive.Engine.C15_reset_then_processor_is_use_after_free",
    "Motive.Engine.C15_always_fails_after_reset",
    "Motive.Engine.C15_reset_partial"
   ],
   "note": "False of the code; negation proved. Reset itself and destruction are safe (partial theorem)."
  },
  {
   "property": "C16",
   "status": "proved",
   "theorems": [
    "Motive.Math.Range.C16_normalise",
    "Motive.Math.Range.C16_normalize_domain"
   ],
   "note": "exact arithmetic in an ordered field"
  },
  {
   "property": "C17",
   "status": "proved",
   "theorems": [
    "Motive.Math.Range.C17_modular_differences"
   ],
   "note": "exact arithmetic in an ordered field"
  },
  {
   "property": "C18",
   "status": "proved",
   "theorems": [
    "Motive.Math.Range.C18_intersect",
    "Motive.Math.Range.C18_union",
    "Motive.Math.Range.C18_include",
    "Motive.Math.Range.C18_clamp",
    "Motive.Math.Range.C18_values_in_range",
    "Motive.Math.Range.C18_intersect_ranges",
    "Motive.Math.Range.C18_intersect_ranges_points"
   ],
   "note": ""
  },
  {
   "property": "C19",
   "status": "proved",
   "theorems": [
    "Motive.Math.Angle.C19_operations",
    "Motive.Math.Angle.C19_group",
    "Motive.Math.Angle.C19_equal_iff_congruent",
    "Motive.Math.Angle.C19_degrees_round_trip"
   ],
   "note": "exact arithmetic in an ordered field, pi a positive parameter"
  },
  {
   "property": "C20",
   "status": "proved",
   "theorems": [
    "Motive.Math.Angle.C20_clamp"
   ],
   "note": "exact arithmetic in an ordered field, pi a positive parameter"
  },
  {
   "property": "C21",
   "status": "proved",
   "theorems": [
    "Motive.Splines.C21_x_accurate",
    "Motive.Splines.C21_y_accurate",
    "Motive.Splines.C21_derivative_accurate",
    "Motive.Splines.C21_exact_on_grid",
    "Motive.Splines.C21_make",
    "Motive.Splines.C21_y_not_closest"
   ],
   "note": "real arithmetic; the header's 'closest' for y is wrong (rounds down), shown"
  },
  {
   "property": "C22",
   "status": "proved",
   "theorems": [
    "Motive.Splines.Spline.C22_nodes_sorted",
    "Motive.Splines.Spline.C22_plain_additions_succeed",
    "Motive.Splines.Spline.C22_two_slots_suffice",
    "Motive.Splines.Spline.C22_equal_neighbours",
    "Motive.Splines.Packed.C22_clear_starts_over"
   ],
   "note": "real arithmetic; equal consecutive nodes are possible, shown"
  },
  {
   "property": "C23",
   "status": "proved",
   "theorems": [
    "Motive.Splines.Spline.C23_index_for_x",
    "Motive.Splines.Spline.C23_clamp_index",
    "Motive.Splines.Spline.C23_guess_irrelevant",
    "Motive.Splines.Spline.C23_guess_matters_on_nodes"
   ],
   "note": ""
  },
  {
   "property": "C24",
   "status": "proved",
   "theorems": [
    "Motive.Splines.Spline.C24_repeat",
    "Motive.Splines.Spline.C24_zero_length_fails"
   ],
   "note": "a repeating spline of zero length divides by zero, shown"
  },
  {
   "property": "C25",
   "status": "proved",
   "theorems": [
    "Motive.Splines.Spline.C25_inside_segment",
    "Motive.Splines.Spline.C25_at_node",
    "Motive.Splines.Spline.C25_at_isolated_node",
    "Motive.Splines.Spline.C25_outside",
    "Motive.Splines.Spline.C25_segments_join",
    "Motive.Splines.Spline.C25_window_uses_neighbour"
   ],
   "note": "real arithmetic; statement qualified near nodes, witness for the qualification proved"
  },
  {
   "property": "C26",
   "status": "proved",
   "theorems": [
    "Motive.Splines.Slot.C26_bulk_agrees",
    "Motive.Splines.Slot.C26_bulk_agrees_repeating"
   ],
   "note": "real arithmetic, C++ path; also proved for repeating playback"
  },
  {
   "property": "C27",
   "status": "proved",
   "theorems": [
    "Motive.Splines.Evaluator.C27_move",
    "Motive.Splines.Evaluator.C27_move_future",
    "Motive.Splines.Evaluator.C27_copy",
    "Motive.Splines.Evaluator.C27_move_right_overlapping"
   ],
   "note": "moves to the right onto an overlapping range smear, shown; the allocator never asks for them"
  },
  {
   "property": "C28",
   "status": "partial",
   "theorems": [
    "Motive.Splines.Layout.C28_size_holds",
    "Motive.Splines.Layout.C28_size_not_smallest",
    "Motive.Splines.Layout.C28_size_smallest_odd",
    "Motive.Splines.Layout.C28_array_disjoint",
    "Motive.Splines.Layout.C28_arraySize_too_small",
    "Motive.Splines.Layout.C28_arraySize_partial"
   ],
   "note": "ArraySize claim is false of the code, negation proved; partial theorem when no padding is needed"
  },
  {
   "property": "C29",
   "status": "proved",
   "theorems": [
    "Motive.Curve.C29_derivatives",
    "Motive.Curve.C29_hermite",
    "Motive.Curve.C29_hermite_degenerate",
    "Motive.Curve.C29_quadratic_init",
    "Motive.Curve.C29_transforms"
   ],
   "note": "exact arithmetic"
  },
  {
   "property": "C30",
   "status": "partial",
   "theorems": [
    "Motive.Curve.Quad.C30_roots_partial",
    "Motive.Curve.Quad.C30_two_roots",
    "Motive.Curve.Quad.C30_ranges_matching_sign_partial",
    "Motive.Curve.Quad.C30_roots_inexact",
    "Motive.Curve.Quad.C30_zero_quadratic",
    "Motive.Curve.Quad.C30_ranges_root_at_limit",
    "Motive.Curve.Quad.C30_roots_misscaled"
   ],
   "note": "Exact claim false of the code; negations proved. Exact outside the tolerance bands (partial theorems)."
  },
  {
   "property": "C31",
   "status": "proved",
   "theorems": [
    "Motive.Curve.C31_uniform_curvature",
    "Motive.Curve.C31_not_uniform_sound",
    "Motive.Curve.C31_tolerance_needed"
   ],
   "note": ""
  },
  {
   "property": "C32",
   "status": "partial",
   "theorems": [
    "Motive.Curve.Dual.C32_mid_inside",
    "Motive.Curve.Dual.C32_curvature_partial",
    "Motive.Curve.Dual.C32_curvature_fails_when_clamped",
    "Motive.Curve.Dual.C32_assertion_fails"
   ],
   "note": "Position and Hermite data proved; one-signed curvature is false of the code when the split is clamped, negation proved; partial theorem when it is not."
  },
  {
   "property": "C33",
   "status": "partial",
   "theorems": [
    "Motive.Slot.OvershootSlot.C33_respects_limits",
    "Motive.Slot.OvershootSlot.C33_any_start",
    "Motive.Slot.OvershootSlot.C33_max_delta_partial",
    "Motive.Slot.OvershootSlot.C33_max_delta_fails",
    "Motive.Slot.OvershootSlot.C33_max_delta_per_frame_fails",
    "Motive.Slot.OvershootSlot.C33_fresh_outside",
    "Motive.Slot.OvershootSlot.C33_modular_range_without_zero_fails"
   ],
   "note": "Range and velocity limits proved for all histories. The max_delta limit is false when the velocity is zero after an update, shown; the partial theorem covers the other steps."
  },
  {
   "property": "C34",
   "status": "proved",
   "theorems": [
    "Motive.Slot.OvershootSlot.C34_steps",
    "Motive.Slot.OvershootSlot.C34_no_time",
    "Motive.Slot.OvershootSlot.C34_terminates",
    "Motive.Slot.OvershootSlot.C34_hangs_without_max_delta_time",
    "Motive.Slot.C34_processor_frame",
    "Motive.Slot.C34_processor_frame_modular",
    "Motive.Slot.removedSlot_hangs"
   ],
   "note": "non-termination with max_delta_time <= 0 is proved too"
  },
  {
   "property": "C35",
   "status": "proved",
   "theorems": [
    "Motive.Slot.OvershootSlot.C35_stays",
    "Motive.Slot.OvershootSlot.C35_settles",
    "Motive.Slot.OvershootSlot.C35_within_thresholds_fails",
    "Motive.Slot.OvershootSlot.C35_modular_range_from_zero_fails"
   ],
   "note": "two readings that are false are shown by witness theorems"
  },
  {
   "property": "C36",
   "status": "partial",
   "theorems": [
    "Motive.Curve.C36_ease_partial",
    "Motive.Curve.C36_fly_out_partial",
    "Motive.Curve.C36_fly_in_partial",
    "Motive.Curve.C36_typical",
    "Motive.Curve.C36_settle_partial",
    "Motive.Curve.C36_usual_partial",
    "Motive.Curve.C36_any_input_partial",
    "Motive.Curve.C36_any_fly_in_partial",
    "Motive.Curve.C36_any_fly_out_partial",
    "Motive.Curve.C36_close_target_fails",
    "Motive.Curve.C36_close_target_fails_witness"
   ],
   "note": "Real arithmetic. Proved where the root finder is exact (WellConditioned), which C36_usual_partial shows of all motions with typical distances in [2^-10, 2^10], typical times in [16, 65536], bias in [1/64, 63/64] and velocities up to 256 times the typical one, and the start is not within 2^-22 of the typical distance from the target without being on it (there an assert can fail, C36_close_target_fails). The end velocity is shown whenever a two-phase motion exists; otherwise the code falls back to a fly-out. For every input at all, C36_any_* show the pieces of the curve and where it ends. Missing: smoothness and arrival for inputs in the root finder's tolerance bands."
  },
  {
   "property": "C37",
   "status": "proved",
   "theorems": [
    "Motive.Curve.Spring.C37_shape",
    "Motive.Curve.Spring.C37_smooth",
    "Motive.Curve.Spring.C37_peaks",
    "Motive.Curve.Spring.C37_cut_off",
    "Motive.Curve.Spring.C37_starts",
    "Motive.Curve.Spring.C37_typical",
    "Motive.Slot.SpringSlot.C37_frames",
    "Motive.Slot.SpringSlot.C37_retarget",
    "Motive.Slot.SpringSlot.C37_settles",
    "Motive.Slot.SpringSlot.C37_bounded",
    "Motive.Slot.SpringSlot.C37_fresh",
    "Motive.Curve.Spring.C37_jump_on_target",
    "Motive.Curve.Spring.C37_rest_bias_one",
    "Motive.Curve.Spring.C37_iteration_x_bias_one",
    "Motive.Slot.SpringSlot.C37_untargeted_frame_fails"
   ],
   "note": "real arithmetic; four failures at the edges of the domain shown by witness theorems"
  },
  {
   "property": "C38",
   "status": "proved",
   "theorems": [
    "Motive.Slot.C38_const_never_changes",
    "Motive.Slot.C38_reads_initial_values",
    "Motive.Slot.C38_at_target"
   ],
   "note": ""
  },
  {
   "property": "C39",
   "status": "proved",
   "theorems": [
    "Motive.Proc.C39_refines_private_values",
    "Motive.Proc.C39_removed_slots_reset",
    "Motive.Proc.C39_frame_succeeds_iff",
    "Motive.Proc.C39_unused_slots_are_default"
   ],
   "note": ""
  },
  {
   "property": "C40",
   "status": "proved",
   "theorems": [
    "Motive.SplineProc.C40_linear_ownership",
    "Motive.SplineProc.C40_plays_own",
    "Motive.SplineProc.C40_large_enough",
    "Motive.SplineProc.C40_failures",
    "Motive.SplineProc.C40_destroy",
    "Motive.SplineProc.C40_destroy_leaks",
    "Motive.SplineProc.C40_clone_untargeted_fails",
    "Motive.SplineProc.C40_target_after_clone_fails"
   ],
   "note": "The ownership invariant holds for all histories. Three defects are proved as negations: cloning an untargeted motivator, SetTarget after cloning a small spline, and the leak at destruction."
  },
  {
   "property": "C41",
   "status": "partial",
   "theorems": [
    "Motive.Targets.C41_plain",
    "Motive.Targets.C41_modular",
    "Motive.Targets.C41_spaced",
    "Motive.Targets.C41_positive_direction_fails",
    "Motive.Targets.C41_three_targets_fail",
    "Motive.Targets.C41_negative_time_fails",
    "Motive.Targets.C41_short_step_jumps"
   ],
   "note": "Proved in full for plain values with waypoints at least a grain (EndTime/65535) apart, and for modular values in a symmetric range with at most two waypoints ahead by the closest or direct way, or one of any direction behind a replaced start. Outside that the claim is false; witnesses: a single positive-direction target, three closest targets, a negative time, a first waypoint less than half a grain away."
  },
  {
   "property": "C42",
   "status": "proved",
   "theorems": [
    "Motive.Matrix4.C42_result_is_product",
    "Motive.Matrix4.C42_unsupported_fails",
    "Motive.Matrix4.C42_default_does_nothing",
    "Motive.Matrix4.C42_affine"
   ],
   "note": ""
  },
  {
   "property": "C43",
   "status": "proved",
   "theorems": [
    "Motive.Matrix4.C43_merge",
    "Motive.Matrix4.C43_initialize",
    "Motive.Matrix4.C43_settles",
    "Motive.Matrix4.C43_no_jump",
    "Motive.Matrix4.C43_pose",
    "Motive.Matrix4.C43_type_change_ignored",
    "Motive.Matrix4.C43_quaternion_slips_in"
   ],
   "note": "For every kind of child motivator. Two defects are shown: an id with another type keeps the old type, and a quaternion operation gets into a matrix motivator without operations."
  },
  {
   "property": "C44",
   "status": "proved",
   "theorems": [
    "Motive.Matrix4.C44_align",
    "Motive.Matrix4.C44_neg_same_rotation",
    "Motive.Matrix4.C44_stays_in_hemisphere",
    "Motive.Matrix4.C44_needs_alignment",
    "Motive.Matrix4.C44_missing_component_not_aligned",
    "Motive.Matrix4.C44_velocity_leaves_hemisphere"
   ],
   "note": "Proved as stated, for motivators with all four components that are at rest; without these conditions it is false, shown by two witnesses."
  },
  {
   "property": "C45",
   "status": "proved",
   "theorems": [
    "Motive.Rig.C45_globals",
    "Motive.Rig.C45_acts_on_points",
    "Motive.Rig.C45_out_of_order_fails",
    "Motive.Rig.C45_locals_affine",
    "Motive.Rig.C45_rig_single",
    "Motive.Rig.C45_rig_blended"
   ],
   "note": ""
  },
  {
   "property": "C46",
   "status": "proved",
   "theorems": [
    "Motive.Rig.C46_weights_normalised",
    "Motive.Rig.C46_proportional",
    "Motive.Rig.C46_setWeights",
    "Motive.Rig.C46_average",
    "Motive.Rig.C46_identical",
    "Motive.Rig.C46_full_weight",
    "Motive.Rig.C46_average_between",
    "Motive.Rig.C46_unweighted_first_cancels",
    "Motive.Rig.C46_extra_weights",
    "Motive.Rig.C46_extra_weights_wrong_pose"
   ],
   "note": "Proved with the conditions in the statement. Without them it is false: SetWeights with more weights than animations leaves a sum below one, and opposite quaternions cancel if the first animation has no weight; witnesses."
  },
  {
   "property": "C47",
   "status": "proved",
   "theorems": [
    "Motive.Table.C47_query",
    "Motive.Table.C47_success",
    "Motive.Table.C47_dimensions",
    "Motive.Table.C47_query_by_name",
    "Motive.Table.C47_loaded_once",
    "Motive.Table.C47_unique",
    "Motive.Table.C47_table_entries",
    "Motive.Table.C47_names_entries",
    "Motive.Table.C47_too_many"
   ],
   "note": "For all histories of loads with at most 65535 different animations; C47_too_many shows that the bound is needed."
  },
  {
   "property": "C48",
   "status": "proved",
   "theorems": [
    "Motive.Table.C48_defining",
    "Motive.Table.C48_gather",
    "Motive.Table.C48_constant_animated",
    "Motive.Table.C48_second_load",
    "Motive.Table.C48_too_many"
   ],
   "note": "For the first load of a table and up to 256 animations of an object; the other theorems show that the bounds are needed and that constants outside 0 to 1 become animated."
  },
  {
   "property": "C49",
   "status": "proved",
   "theorems": [
    "Motive.Util.C49_times",
    "Motive.Util.C49_search",
    "Motive.Util.C49_terminates",
    "Motive.Util.C49_derivatives",
    "Motive.Util.C49_three_positions",
    "Motive.Util.C49_turns_back"
   ],
   "note": "Exact arithmetic in any normed space. With exactly three positions the function may not terminate (C49_three_positions); where the path turns back the derivative is undefined (C49_turns_back)."
  },
  {
   "property": "C50",
   "status": "proved",
   "theorems": [
    "Motive.Util.C50_array",
    "Motive.Util.C50_quaternion",
    "Motive.Util.C50_linear_nodes",
    "Motive.Util.C50_step_nodes",
    "Motive.Util.C50_cubic_nodes",
    "Motive.Util.C50_quaternion_signs",
    "Motive.Util.C50_quaternion_nodes",
    "Motive.Util.C50_component_order",
    "Motive.Util.C50_vector_constants",
    "Motive.Util.C50_vector_curves",
    "Motive.Util.C50_quaternion_constants",
    "Motive.Util.C50_quaternion_ops",
    "Motive.Util.C50_types",
    "Motive.Util.C50_too_many",
    "Motive.Util.C50_empty"
   ],
   "note": "For keyframes that are at least one grain (1/65535 of the last time) apart; the bounds are those of the quantisation of spline nodes. Without keyframes the conversion is undefined (C50_empty)."
  },
  {
   "property": "C51",
   "status": "proved",
   "theorems": [
    "Motive.Pipeline.C51_add_curve",
    "Motive.Pipeline.C51_add_curve_single",
    "Motive.Pipeline.C51_add_curve_accuracy",
    "Motive.Pipeline.C51_prune_nodes",
    "Motive.Pipeline.C51_prune_sublist",
    "Motive.Pipeline.C51_prune_ends",
    "Motive.Pipeline.C51_prune_tolerance_fails",
    "Motive.Pipeline.C51_add_curve_truncates"
   ],
   "note": "With the conditions in the statement. Two defects are shown: a removed node may be further off than the tolerance, and sampled times between ticks are truncated."
  },
  {
   "property": "C52",
   "status": "proved",
   "theorems": [
    "Motive.Pipeline.C52_sum",
    "Motive.Pipeline.C52_prune_channels",
    "Motive.Pipeline.C52_sum_of_unequal_spans_fails",
    "Motive.Pipeline.C52_scales_are_added",
    "Motive.Pipeline.C52_quaternion_component_dropped"
   ],
   "note": "With the conditions in the statement; the other theorems show that it is false without them."
  },
  {
   "property": "C53",
   "status": "proved",
   "theorems": [
    "Motive.Math.FloatBits.C53_exponent_as_int",
    "Motive.Math.FloatBits.C53_exponent_from_int",
    "Motive.Math.FloatBits.C53_reciprocal",
    "Motive.Math.FloatBits.C53_sqrt_reciprocal",
    "Motive.Math.FloatBits.C53_max_power",
    "Motive.Math.FloatBits.C53_model_agrees",
    "Motive.Math.FloatBits.C53_sqrt_not_rounded_down"
   ],
   "note": "bit patterns; the header's example 'rounded down' for SqrtReciprocalExponent(8) is wrong, shown"
  },
  {
   "property": "C54",
   "status": "proved",
   "theorems": [
    "Motive.Targets.Target.C54_times",
    "Motive.Targets.Target.C54_accepts",
    "Motive.Targets.Target.C54_negative_time_accepted",
    "Motive.Targets.Target.C54_value_range",
    "Motive.Targets.Target.C54_end_time",
    "Motive.Targets.Target.C54_const_velocity",
    "Motive.Targets.Target.C54_builders"
   ],
   "note": "Every builder and the constructors with two and three waypoints give strictly increasing non-negative times; the constructor with one waypoint does not check (negation theorem). Value range is the smallest interval; const velocity and n-dimensional builders."
  },
  {
   "property": "C55",
   "status": "proved",
   "theorems": [
    "Motive.Math.Range.C55_index_of_longest",
    "Motive.Math.Range.C55_index_of_shortest",
    "Motive.Math.Range.C55_clamp_to_closest",
    "Motive.Math.Range.C55_covers"
   ],
   "note": ""
  },
  {
   "property": "C56",
   "status": "proved",
   "theorems": [
    "Motive.Math.Angle.C56_vector_round_trip",
    "Motive.Math.Angle.C56_from_vector",
    "Motive.Math.Angle.C56_rotation",
    "Motive.Math.Angle.C56_lat_long"
   ],
   "note": "real arithmetic"
  },
  {
   "property": "C57",
   "status": "partial",
   "theorems": [
    "Motive.Splines.Slot.C57_blend",
    "Motive.Splines.Slot.C57_start_derivative",
    "Motive.Splines.Slot.C57_end_derivative",
    "Motive.Splines.Slot.C57_modular",
    "Motive.Splines.Slot.C57_modular_not_shortest"
   ],
   "note": "Value continuity proved. Derivative continuity is false at the start if the rate is not 1 and at the end if the scale is not 1; shortest way is false for ranges that are not symmetric: all shown."
  },
  {
   "property": "C58",
   "status": "proved",
   "theorems": [
    "Motive.Splines.Slot.C58_set_x",
    "Motive.Splines.Slot.C58_clear_loses_value"
   ],
   "note": ""
  },
  {
   "property": "C59",
   "status": "proved",
   "theorems": [
    "Motive.Slot.EaseSlot.C59_frames",
    "Motive.Slot.EaseSlot.C59_typical",
    "Motive.Slot.EaseSlot.C59_settles",
    "Motive.Slot.EaseSlot.C59_bias_one_runs_away",
    "Motive.Slot.EaseSlot.C59_velocity_after_arrival"
   ],
   "note": "real arithmetic; with bias 1 and an arrival velocity the claim is false, shown; the settling motion is shown where the root finder is exact"
  },
  {
   "property": "C60",
   "status": "partial",
   "theorems": [
    "Motive.Slot.C60_difference_first_partial",
    "Motive.Slot.C60_difference_fails"
   ],
   "note": "false for every motivator that is not at index 0, shown; holds at index 0"
  },
  {
   "property": "C61",
   "status": "partial",
   "theorems": [
    "Motive.Slot.C61_initial_values",
    "Motive.Slot.C61_default_derivatives_fails"
   ],
   "note": "holds if derivatives are passed; with the default null pointer the code dereferences null, shown"
  },
  {
   "property": "C62",
   "status": "proved",
   "theorems": [
    "Motive.Math.Range.C62_lengthen",
    "Motive.Math.Range.C62_lengthen_below_one_is_longer"
   ],
   "note": "the comment in the header is half wrong, shown"
  },
  {
   "property": "C63",
   "status": "proved",
   "theorems": [
    "Motive.Splines.Evaluator.C63_set_splines",
    "Motive.Splines.Evaluator.C63_frame",
    "Motive.Splines.Evaluator.C63_frame_succeeds"
   ],
   "note": ""
  },
  {
   "property": "C64",
   "status": "proved",
   "theorems": [
    "Motive.Matrix4.C64_parts",
    "Motive.Matrix4.C64_scale_before_rotation_not_rotation"
   ],
   "note": ""
  },
  {
   "property": "C65",
   "status": "proved",
   "theorems": [
    "Motive.Matrix4.C65_sqt",
    "Motive.Matrix4.C65_pose",
    "Motive.Matrix4.C65_old_uniform_scale_wins"
   ],
   "note": ""
  },
  {
   "property": "C66",
   "status": "proved",
   "theorems": [
    "Motive.Rig.C66_child",
    "Motive.Rig.C66_time_remaining",
    "Motive.Rig.C66_before_animation",
    "Motive.Rig.C66_repeating_overflows",
    "Motive.Matrix4.C66_matrix_time_remaining"
   ],
   "note": "One defect is shown: the end time of a repeating animation overflows."
  },
  {
   "property": "C67",
   "status": "proved",
   "theorems": [
    "Motive.Rig.C67_blendToAnim",
    "Motive.Rig.C67_blendToAnims",
    "Motive.Rig.C67_succeeds",
    "Motive.Rig.C67_one_bone_fails",
    "Motive.Rig.C67_copies_too_late"
   ],
   "note": "Two defects are shown: an animation with one bone fails on a larger rig, and the copy of the previous animation is made after it has been replaced."
  },
  {
   "property": "C68",
   "status": "proved",
   "theorems": [
    "Motive.Pipeline.C68_min",
    "Motive.Pipeline.C68_max",
    "Motive.Pipeline.C68_times",
    "Motive.Pipeline.C68_constant"
   ],
   "note": "ShiftTime, ExtendChannelsToTime, MinAnimatedTime, MaxAnimatedTime as called by RunAnimPipeline."
  },
  {
   "property": "C69",
   "status": "proved",
   "theorems": [
    "Motive.Pipeline.C69_repeat",
    "Motive.Pipeline.C69_no_jump",
    "Motive.Pipeline.C69_too_many_bones"
   ],
   "note": "The loop over bones is over a uint8_t; with 256 bones or more it does not end (unreachable from the exporter, which rejects them)."
  },
  {
   "property": "C70",
   "status": "proved",
   "theorems": [
    "Motive.Pipeline.C70_export",
    "Motive.Pipeline.C70_accurate",
    "Motive.Pipeline.C70_evaluate",
    "Motive.Pipeline.C70_too_many_nodes"
   ],
   "note": "The conversion, the rounding of each key, the distance of the evaluated spline from the original cubic, and the failure at 65536 keys."
  },
  {
   "property": "C71",
   "status": "proved",
   "theorems": [
    "Motive.Pipeline.C71_round_trip",
    "Motive.Pipeline.C71_too_many_bones",
    "Motive.Pipeline.C71_roots",
    "Motive.Pipeline.C71_roots_fail",
    "Motive.Pipeline.C71_float_spline_fails"
   ],
   "note": "Writer and reader composed. The FlatBuffers library is trusted to return the tables that were written. The last two are findings."
  },
  {
   "property": "C72",
   "status": "proved",
   "theorems": [
    "Motive.Pipeline.C72_query",
    "Motive.Pipeline.C72_no_bone",
    "Motive.Pipeline.C72_imported",
    "Motive.Pipeline.C72_invalid_answers"
   ],
   "note": "Operations of the invalid kind are excluded in the first theorem and shown to be matched by mistake in the last."
  },
  {
   "property": "C73",
   "status": "proved",
   "theorems": [
    "Motive.Matrix4.C73_clone",
    "Motive.Matrix4.C73_goes_on",
    "Motive.Matrix4.C73_independent",
    "Motive.Matrix4.C73_child_lost"
   ],
   "note": "Children are motivators of the processor model; the last theorem is the loss of children that cannot be cloned."
  },
  {
   "property": "C74",
   "status": "proved",
   "theorems": [
    "Motive.Pipeline.C74_bones",
    "Motive.Pipeline.C74_others",
    "Motive.Pipeline.C74_animation"
   ],
   "note": "Nodes are told apart by their address; node trees are an inductive type, so sharing and cycles, which the FBX SDK excludes, do not occur."
  },
  {
   "property": "C75",
   "status": "proved",
   "theorems": [
    "Motive.Pipeline.C75_transform",
    "Motive.Pipeline.C75_transform_exact",
    "Motive.Pipeline.C75_rotation_order",
    "Motive.Pipeline.C75_rotations_do_not_cancel",
    "Motive.Pipeline.C75_static",
    "Motive.Pipeline.C75_scene"
   ],
   "note": "The FBX SDK is a parameter: what properties and curves return. C75_rotation_order says for which orders the rotation is right, and that it is wrong for the others."
  },
  {
   "property": "C76",
   "status": "proved",
   "theorems": [
    "Motive.Pipeline.C76_curve",
    "Motive.Pipeline.C76_constant",
    "Motive.Pipeline.C76_last_slope_ignored",
    "Motive.Pipeline.C76_outside_fails",
    "Motive.Pipeline.C76_clipped",
    "Motive.Pipeline.C76_meets"
   ],
   "note": "Curves are given by their keys and by what Evaluate and the derivatives return; for C76_constant the curve between two keys is the cubic with the slopes of the keys."
  },
  {
   "property": "C77",
   "status": "proved",
   "theorems": [
    "Motive.Pipeline.C77_prune_again",
    "Motive.Pipeline.C77_two_scales_change"
   ],
   "note": "The second theorem shows that the condition on scales is needed."
  },
  {
   "property": "C78",
   "status": "proved",
   "theorems": [
    "Motive.Engine.C78_one_time",
    "Motive.Engine.C78_succeeds",
    "Motive.Engine.C78_bones",
    "Motive.Engine.C78_bones_both",
    "Motive.Engine.C78_order_matters"
   ],
   "note": "The update of a slot is a parameter of C78_one_time; C78_bones fills in the matrix operations and the rig, C78_bones_both bones that are matrix or SQT motivators. The last theorem shows that the order of creation would not do."
  },
  {
   "property": "C79",
   "status": "proved",
   "theorems": [
    "Motive.Owner.C79_parts_by_value",
    "Motive.Owner.C79_never_fails",
    "Motive.Owner.C79_one_owner",
    "Motive.Owner.C79_nothing_left",
    "Motive.Owner.C79_invalidate_children",
    "Motive.Owner.C79_others_untouched",
    "Motive.Owner.C79_standing_untouched",
    "Motive.Owner.C79_defragment"
   ],
   "note": "Both levels are worlds of Verif.Proc; the meaning of the calls is a separate state without addresses (Nested)."
  },
  {
   "property": "C80",
   "status": "proved",
   "theorems": [
    "Motive.Owner.C80_growth_by_copy",
    "Motive.Owner.C80_lost_child",
    "Motive.Owner.C80_fails_for_springs"
   ],
   "note": "Whether std::vector copies depends on the exception specification of the vectors and matrices of mathfu, which is not in the repository."
  },
  {
   "property": "C81",
   "status": "proved",
   "theorems": [
    "Motive.Float.Angle.C81_add_sub",
    "Motive.Float.Angle.C81_laws",
    "Motive.Float.Angle.C81_constants",
    "Motive.Float.Angle.C81_sub_zero",
    "Motive.Float.Angle.C81_not_associative"
   ],
   "note": "Float layer: every operation rounded, without overflow, NaN and signed zero."
  },
  {
   "property": "C82",
   "status": "proved",
   "theorems": [
    "Motive.Float.Angle.C82_from_radians",
    "Motive.Float.Angle.C82_from_degrees",
    "Motive.Float.Angle.C82_scale",
    "Motive.Float.Angle.C82_clamp",
    "Motive.Float.Angle.C82_small_angle_lost",
    "Motive.Float.Angle.C82_large_fails",
    "Motive.Float.Angle.C82_clamp_changes"
   ],
   "note": "Float layer."
  },
  {
   "property": "C83",
   "status": "proved",
   "theorems": [
    "Motive.Float.Range.C83_normalize",
    "Motive.Float.Range.C83_wild",
    "Motive.Float.Range.C83_close",
    "Motive.Float.Range.C83_differences",
    "Motive.Float.Range.C83_lerp_ends",
    "Motive.Float.Range.C83_asymmetric_fails",
    "Motive.Float.Range.C83_positive_reaches_length"
   ],
   "note": "Float layer."
  },
  {
   "property": "C84",
   "status": "proved",
   "theorems": [
    "Motive.Float.Quantize.C84_x",
    "Motive.Float.Quantize.C84_x_monotone",
    "Motive.Float.Quantize.C84_y",
    "Motive.Float.Quantize.C84_y_ends",
    "Motive.Float.Quantize.C84_y_monotone",
    "Motive.Float.Quantize.C84_y_order_lost"
   ],
   "note": "Float layer; lengths of at least 2^-100. Derivatives (atan, tan) are not modelled with rounding."
  },
  {
   "property": "C85",
   "status": "proved",
   "theorems": [
    "Motive.Float.Time.C85_exact",
    "Motive.Float.Time.C85_division_of_time",
    "Motive.Float.Time.C85_forwards",
    "Motive.Float.Time.C85_drift",
    "Motive.Float.Time.C85_stops",
    "Motive.Float.Time.C85_stops_after_hours"
   ],
   "note": "Float layer; frames of at most 2^24 milliseconds where the conversion of the frame to float is to be exact."
  },
  {
   "property": "C86",
   "status": "partial",
   "theorems": [
    "Motive.Spline.TwoSteps.C86_one_step",
    "Motive.Spline.TwoSteps.C86_two_steps_partial",
    "Motive.Spline.TwoSteps.C86_many_splines",
    "Motive.Spline.TwoSteps.C86_two_steps_miss",
    "Motive.Spline.TwoSteps.C86_single_spline"
   ],
   "note": "The one-pass function is proved without restriction. The two-pass function is wrong beyond the stated bounds; the negations are proved."
  },
  {
   "property": "C87",
   "status": "partial",
   "theorems": [
    "Motive.Pipeline.CommandLine.C87_accepts",
    "Motive.Pipeline.CommandLine.C87_rejects_partial",
    "Motive.Pipeline.CommandLine.C87_errors_forgiven",
    "Motive.Pipeline.CommandLine.C87_any_order"
   ],
   "note": "Refusal is proved for lines without the axes and the unit; with them it is false, and the negation is proved."
  },
  {
   "property": "C88",
   "status": "proved",
   "theorems": [
    "Motive.Rig.Storage.C88_rig_objects",
    "Motive.Rig.Storage.C88_no_leak",
    "Motive.Rig.Storage.C88_initialize",
    "Motive.Rig.Storage.C88_kept",
    "Motive.Rig.Storage.C88_advance",
    "Motive.Rig.Storage.C88_deleted"
   ],
   "note": "About pointers and the heap; what rigs contain is the subject of other properties."
  },
  {
   "property": "C89",
   "status": "proved",
   "theorems": [
    "Motive.Proc.Vector.C89_dimensions_are_motivators",
    "Motive.Proc.Vector.C89_reads",
    "Motive.Proc.Vector.C89_target_time",
    "Motive.Proc.Vector.C89_same_failures",
    "Motive.Proc.Vector.C89_extra_dimension_overwrites"
   ],
   "note": "For processors in which a setter and a frame treat each slot by itself; C89_extra_dimension_overwrites shows what happens when a setter is given more dimensions than the motivator has."
  },
  {
   "property": "C90",
   "status": "proved",
   "theorems": [
    "Motive.Proc.Vector.C90_life",
    "Motive.Proc.Vector.C90_same_life",
    "Motive.Proc.Vector.C90_safety",
    "Motive.Proc.Vector.C90_overshoot_limits",
    "Motive.Proc.Vector.C90_springs_arrive",
    "Motive.Proc.Vector.C90_eases_arrive"
   ],
   "note": "The arrival of springs and ease motivators carries the conditions of C37 and C59."
  },
  {
   "property": "C91",
   "status": "proved",
   "theorems": [
    "Motive.SplineProc.C91_motivators_play",
    "Motive.SplineProc.C91_repeating_after_end",
    "Motive.SplineProc.C91_cleared_slots_run",
    "Motive.SplineProc.C91_untargeted_frame_fails"
   ],
   "note": "Values are real numbers; positions stay below 2^31 grains. C91_untargeted_frame_fails is a disagreement: a new spline motivator with no spline makes the next frame fail."
  },
  {
   "property": "C92",
   "status": "proved",
   "theorems": [
    "Motive.Float.Overshoot.C92_limits",
    "Motive.Float.Overshoot.C92_programs",
    "Motive.Float.Overshoot.C92_stays",
    "Motive.Float.Overshoot.C92_settles",
    "Motive.Float.Overshoot.C92_longest_step_fails",
    "Motive.Float.Overshoot.C92_slow_motion_stalls"
   ],
   "note": "Modular ranges are symmetric about 0. Overflow, NaN and the sign of zero are not modelled. C92_longest_step_fails and C92_slow_motion_stalls are disagreements."
  },
  {
   "property": "C93",
   "status": "proved",
   "theorems": [
    "Motive.Pipeline.Output.C93_status",
    "Motive.Pipeline.Output.C93_failure",
    "Motive.Pipeline.Output.C93_success",
    "Motive.Pipeline.Output.C93_reads_back",
    "Motive.Pipeline.Output.C93_stopped",
    "Motive.Pipeline.Output.C93_write_errors_ignored",
    "Motive.Pipeline.Output.C93_not_atomic"
   ],
   "note": "The functions of fplutil on names and the layout of the tables are arbitrary. C93_write_errors_ignored and C93_not_atomic are disagreements."
  },
  {
   "property": "C94",
   "status": "proved",
   "theorems": [
    "Motive.Pipeline.Defining.C94_round_trip",
    "Motive.Pipeline.Defining.C94_refuses",
    "Motive.Pipeline.Defining.C94_constants_lost",
    "Motive.Pipeline.Defining.C94_quaternions_fail",
    "Motive.Pipeline.Defining.C94_unsaved"
   ],
   "note": "C94_constants_lost, C94_quaternions_fail and C94_unsaved are disagreements."
  },
  {
   "property": "C95",
   "status": "proved",
   "theorems": [
    "Motive.Matrix4.C95_stage",
    "Motive.Matrix4.C95_initialize",
    "Motive.Matrix4.C95_program",
    "Motive.Matrix4.C95_no_jump",
    "Motive.Matrix4.C95_align",
    "Motive.Matrix4.C95_align_stops",
    "Motive.Matrix4.C95_sqt"
   ],
   "note": "Real arithmetic. Blends to constants; targets and splines in the new list are C41 and C91. C95_align_stops is a disagreement."
  },
  {
   "property": "C96",
   "status": "proved",
   "theorems": [
    "Motive.SplineProc.C96_plays",
    "Motive.SplineProc.C96_motivators_play",
    "Motive.SplineProc.C96_long_stride_fails"
   ],
   "note": "Real arithmetic; the rate is positive when the spline starts and not negative later. Extends C26, C57 and C91 to unbounded time, repeating splines and angles."
  },
  {
   "property": "C97",
   "status": "proved",
   "theorems": [
    "Motive.Matrix4.C97_program",
    "Motive.Matrix4.C97_initialize",
    "Motive.Matrix4.C97_no_jump",
    "Motive.Matrix4.C97_sqt"
   ],
   "note": "Real arithmetic. Frames are at most 32 s. Angles have at most two waypoints per target (C41). Blends in progress are C96."
  },
  {
   "property": "C98",
   "status": "proved",
   "theorems": [
    "Motive.Rig.C98_rig",
    "Motive.Rig.C98_runs",
    "Motive.Rig.C98_kinds_do_not_mix"
   ],
   "note": "Real arithmetic; mathfu::quat::FromMatrix is any function. Frames are at most 32 s. Splines are values: their storage is C40."
  },
  {
   "property": "C99",
   "status": "proved",
   "theorems": [
    "Motive.Float.Hermite.C99_value",
    "Motive.Float.Hermite.C99_slope",
    "Motive.Float.Hermite.C99_higher",
    "Motive.Float.Hermite.C99_start",
    "Motive.Float.Hermite.C99_flat",
    "Motive.Float.Hermite.C99_shift",
    "Motive.Float.Hermite.C99_end_inexact",
    "Motive.Float.Hermite.C99_spline_between",
    "Motive.Float.Hermite.C99_spline_node",
    "Motive.Float.Hermite.C99_spline_outside",
    "Motive.Float.Hermite.C99_spline_end",
    "Motive.Float.Hermite.C99_second_node_inexact"
   ],
   "note": "Overflow is not modelled; the operations of Init are rounded one by one; tan is any function to floats."
  }
 ]
}
