#!/usr/bin/env python3
"""Regenerates MANIFEST.json from the table below."""
import json, os
ROOT = os.path.dirname(os.path.dirname(os.path.abspath(__file__)))
T = []
def c(prop, status, thms, note=""):
    T.append({"property": prop, "status": status, "theorems": thms, "note": note})

A = "Motive.Alloc."
c("C01", "proved", [A+"C01_blocks_tile"])
c("C02", "proved", [A+"C02_alloc_best_fit"])
c("C03", "proved", [A+"C03_defragment_terminates"])
c("C04", "proved", [A+"C04_defragment_no_holes"])
c("C05", "proved", [A+"C05_defragment_moves_data", A+"C05_refines_buffers"])

P = "Motive.Proc."
c("C06", "proved", [P+"C06_handles_sane", P+"C06_checks_exact"])
c("C07", "proved", [P+"C07_disjoint_storage", P+"C07_no_leak"])
c("C08", "proved", [P+"C08_compaction_invisible"])
c("C09", "proved", [P+"C09_non_interference"])
c("C10", "proved", [P+"C10_move_assign", P+"C10_move_construct"])
c("C11", "proved", [P+"C11_clone"])
c("C12", "proved", [P+"C12_destroy_resets"])

E = "Motive.Engine."
c("C13", "proved", [E+"C13_one_per_type", E+"C13_same_processor", E+"C13_first_registration_wins",
                    E+"C13_null_iff_unregistered"])
c("C14", "proved", [E+"C14_advance_order"])
c("C15", "partial", [E+"C15_reset_then_advance_is_use_after_free",
                     E+"C15_reset_then_processor_is_use_after_free",
                     E+"C15_always_fails_after_reset", E+"C15_reset_partial"],
  "False of the code; negation proved. Reset itself and destruction are safe (partial theorem).")
c("C39", "proved", [P+"C39_refines_private_values", P+"C39_removed_slots_reset", P+"C39_frame_succeeds_iff", P+"C39_unused_slots_are_default"])

M = "Motive.Math."
R = M+"Range."
G = M+"Angle."
c("C16", "proved", [R+"C16_normalise", R+"C16_normalize_domain"], "exact arithmetic in an ordered field")
c("C17", "proved", [R+"C17_modular_differences"], "exact arithmetic in an ordered field")
c("C18", "proved", [R+"C18_intersect", R+"C18_union", R+"C18_include", R+"C18_clamp", R+"C18_values_in_range",
                    R+"C18_intersect_ranges", R+"C18_intersect_ranges_points"])
c("C19", "proved", [G+"C19_operations", G+"C19_group", G+"C19_equal_iff_congruent", G+"C19_degrees_round_trip"],
  "exact arithmetic in an ordered field, pi a positive parameter")
c("C20", "proved", [G+"C20_clamp"], "exact arithmetic in an ordered field, pi a positive parameter")
c("C55", "proved", [R+"C55_index_of_longest", R+"C55_index_of_shortest", R+"C55_clamp_to_closest", R+"C55_covers"])
c("C56", "proved", [G+"C56_vector_round_trip", G+"C56_from_vector", G+"C56_rotation", G+"C56_lat_long"],
  "real arithmetic")

V = "Motive.Curve."
Q = V+"Quad."
D = V+"Dual."
c("C29", "proved", [V+"C29_derivatives", V+"C29_hermite", V+"C29_hermite_degenerate", V+"C29_quadratic_init",
                    V+"C29_transforms"], "exact arithmetic")
c("C30", "partial", [Q+"C30_roots_partial", Q+"C30_two_roots", Q+"C30_ranges_matching_sign_partial",
                     Q+"C30_roots_inexact", Q+"C30_zero_quadratic", Q+"C30_ranges_root_at_limit", Q+"C30_roots_misscaled"],
  "Exact claim false of the code; negations proved. Exact outside the tolerance bands (partial theorems).")
c("C31", "proved", [V+"C31_uniform_curvature", V+"C31_not_uniform_sound", V+"C31_tolerance_needed"])
c("C32", "partial", [D+"C32_mid_inside", D+"C32_curvature_partial", D+"C32_curvature_fails_when_clamped",
                     D+"C32_assertion_fails"],
  "Position and Hermite data proved; one-signed curvature is false of the code when the split is clamped, "
  "negation proved; partial theorem when it is not.")
F = M+"FloatBits."
c("C53", "proved", [F+"C53_exponent_as_int", F+"C53_exponent_from_int", F+"C53_reciprocal",
                    F+"C53_sqrt_reciprocal", F+"C53_max_power", F+"C53_model_agrees", F+"C53_sqrt_not_rounded_down"],
  "bit patterns; the header's example 'rounded down' for SqrtReciprocalExponent(8) is wrong, shown")

S0 = "Motive.Splines."
S = S0+"Spline."
L = S0+"Layout."
c("C21", "proved", [S0+"C21_x_accurate", S0+"C21_y_accurate", S0+"C21_derivative_accurate", S0+"C21_exact_on_grid",
                    S0+"C21_make", S0+"C21_y_not_closest"],
  "real arithmetic; the header's 'closest' for y is wrong (rounds down), shown")
c("C22", "proved", [S+"C22_nodes_sorted", S+"C22_plain_additions_succeed", S+"C22_two_slots_suffice",
                    S+"C22_equal_neighbours", "Motive.Splines.Packed.C22_clear_starts_over"], "real arithmetic; equal consecutive nodes are possible, shown")
c("C23", "proved", [S+"C23_index_for_x", S+"C23_clamp_index", S+"C23_guess_irrelevant", S+"C23_guess_matters_on_nodes"])
c("C24", "proved", [S+"C24_repeat", S+"C24_zero_length_fails"], "a repeating spline of zero length divides by zero, shown")
c("C25", "proved", [S+"C25_inside_segment", S+"C25_at_node", S+"C25_at_isolated_node", S+"C25_outside",
                    S+"C25_segments_join", S+"C25_window_uses_neighbour"],
  "real arithmetic; statement qualified near nodes, witness for the qualification proved")
c("C28", "partial", [L+"C28_size_holds", L+"C28_size_not_smallest", L+"C28_size_smallest_odd", L+"C28_array_disjoint",
                     L+"C28_arraySize_too_small", L+"C28_arraySize_partial"],
  "ArraySize claim is false of the code, negation proved; partial theorem when no padding is needed")

SL = S0+"Slot."
EV = S0+"Evaluator."
c("C26", "proved", [SL+"C26_bulk_agrees", SL+"C26_bulk_agrees_repeating"],
  "real arithmetic, C++ path; also proved for repeating playback")
c("C27", "proved", [EV+"C27_move", EV+"C27_move_future", EV+"C27_copy", EV+"C27_move_right_overlapping"],
  "moves to the right onto an overlapping range smear, shown; the allocator never asks for them")
c("C57", "partial", [SL+"C57_blend", SL+"C57_start_derivative", SL+"C57_end_derivative", SL+"C57_modular",
                     SL+"C57_modular_not_shortest"],
  "Value continuity proved. Derivative continuity is false at the start if the rate is not 1 and at the end if the "
  "scale is not 1; shortest way is false for ranges that are not symmetric: all shown.")
c("C58", "proved", [SL+"C58_set_x", SL+"C58_clear_loses_value"])

SP = V+"Spring."
SS = "Motive.Slot.SpringSlot."
ES = "Motive.Slot.EaseSlot."
c("C36", "partial", [V+"C36_ease_partial", V+"C36_fly_out_partial", V+"C36_fly_in_partial", V+"C36_typical", V+"C36_settle_partial",
                     V+"C36_usual_partial", V+"C36_any_input_partial", V+"C36_any_fly_in_partial", V+"C36_any_fly_out_partial",
                     V+"C36_close_target_fails", V+"C36_close_target_fails_witness"],
  "Real arithmetic. Proved where the root finder is exact (WellConditioned), which C36_usual_partial shows of all motions with "
  "typical distances in [2^-10, 2^10], typical times in [16, 65536], bias in [1/64, 63/64] and velocities up to 256 times the "
  "typical one, and the start is not within 2^-22 of the "
  "typical distance from the target without being on it (there an assert can fail, C36_close_target_fails). The end velocity is shown whenever a two-phase motion exists; "
  "otherwise the code falls back to a fly-out. For every input at all, C36_any_* show "
  "the pieces of the curve and where it ends. Missing: smoothness and arrival for inputs in the root finder's tolerance bands.")
c("C37", "proved", [SP+"C37_shape", SP+"C37_smooth", SP+"C37_peaks", SP+"C37_cut_off", SP+"C37_starts", SP+"C37_typical",
                    SS+"C37_frames", SS+"C37_retarget", SS+"C37_settles", SS+"C37_bounded", SS+"C37_fresh",
                    SP+"C37_jump_on_target", SP+"C37_rest_bias_one", SP+"C37_iteration_x_bias_one",
                    SS+"C37_untargeted_frame_fails"],
  "real arithmetic; four failures at the edges of the domain shown by witness theorems")
c("C59", "proved", [ES+"C59_frames", ES+"C59_typical", ES+"C59_settles", ES+"C59_bias_one_runs_away", ES+"C59_velocity_after_arrival"],
  "real arithmetic; with bias 1 and an arrival velocity the claim is false, shown; the settling motion is shown where the root finder is exact")

OS = "Motive.Slot.OvershootSlot."
S1 = "Motive.Slot."
c("C33", "partial", [OS+"C33_respects_limits", OS+"C33_any_start", OS+"C33_max_delta_partial", OS+"C33_max_delta_fails",
                     OS+"C33_max_delta_per_frame_fails", OS+"C33_fresh_outside", OS+"C33_modular_range_without_zero_fails"],
  "Range and velocity limits proved for all histories. The max_delta limit is false when the velocity is zero after an "
  "update, shown; the partial theorem covers the other steps.")
c("C34", "proved", [OS+"C34_steps", OS+"C34_no_time", OS+"C34_terminates", OS+"C34_hangs_without_max_delta_time",
                    S1+"C34_processor_frame", S1+"C34_processor_frame_modular", S1+"removedSlot_hangs"],
  "non-termination with max_delta_time <= 0 is proved too")
c("C35", "proved", [OS+"C35_stays", OS+"C35_settles", OS+"C35_within_thresholds_fails",
                    OS+"C35_modular_range_from_zero_fails"],
  "two readings that are false are shown by witness theorems")
c("C38", "proved", [S1+"C38_const_never_changes", S1+"C38_reads_initial_values", S1+"C38_at_target"])
c("C60", "partial", [S1+"C60_difference_first_partial", S1+"C60_difference_fails"],
  "false for every motivator that is not at index 0, shown; holds at index 0")
c("C61", "partial", [S1+"C61_initial_values", S1+"C61_default_derivatives_fails"],
  "holds if derivatives are passed; with the default null pointer the code dereferences null, shown")
c("C62", "proved", [R+"C62_lengthen", R+"C62_lengthen_below_one_is_longer"], "the comment in the header is half wrong, shown")

SPP = "Motive.SplineProc."
c("C40", "proved", [SPP+x for x in ["C40_linear_ownership", "C40_plays_own", "C40_large_enough", "C40_failures", "C40_destroy",
  "C40_destroy_leaks", "C40_clone_untargeted_fails", "C40_target_after_clone_fails"]],
  "The ownership invariant holds for all histories. Three defects are proved as negations: cloning an untargeted motivator, SetTarget after cloning a small spline, and the leak at destruction.")
c("C63", "proved", ["Motive.Splines.Evaluator."+x for x in ["C63_set_splines", "C63_frame", "C63_frame_succeeds"]])
TG = "Motive.Targets."
c("C41", "partial", [TG+x for x in ["C41_plain", "C41_modular", "C41_spaced", "C41_positive_direction_fails", "C41_three_targets_fail",
  "C41_negative_time_fails", "C41_short_step_jumps"]],
  "Proved in full for plain values with waypoints at least a grain (EndTime/65535) apart, and for modular values in a symmetric range with at most two waypoints ahead by the closest or direct way, or one of any direction behind a replaced start. Outside that the claim is false; witnesses: a single positive-direction target, three closest targets, a negative time, a first waypoint less than half a grain away.")
c("C54", "proved", [TG+"Target."+x for x in ["C54_times", "C54_accepts", "C54_negative_time_accepted", "C54_value_range", "C54_end_time",
  "C54_const_velocity", "C54_builders"]],
  "Every builder and the constructors with two and three waypoints give strictly increasing non-negative times; the constructor with one waypoint does not check (negation theorem). Value range is the smallest interval; const velocity and n-dimensional builders.")
M4 = "Motive.Matrix4."
c("C42", "proved", [M4+x for x in ["C42_result_is_product", "C42_unsupported_fails", "C42_default_does_nothing", "C42_affine"]])
c("C43", "proved", [M4+x for x in ["C43_merge", "C43_initialize", "C43_settles", "C43_no_jump", "C43_pose", "C43_type_change_ignored",
  "C43_quaternion_slips_in"]],
  "For every kind of child motivator. Two defects are shown: an id with another type keeps the old type, and a quaternion operation gets into a matrix motivator without operations.")
c("C44", "proved", [M4+x for x in ["C44_align", "C44_neg_same_rotation", "C44_stays_in_hemisphere", "C44_needs_alignment",
  "C44_missing_component_not_aligned", "C44_velocity_leaves_hemisphere"]],
  "Proved as stated, for motivators with all four components that are at rest; without these conditions it is false, shown by two witnesses.")
c("C64", "proved", [M4+x for x in ["C64_parts", "C64_scale_before_rotation_not_rotation"]])
c("C65", "proved", [M4+x for x in ["C65_sqt", "C65_pose", "C65_old_uniform_scale_wins"]])
RG = "Motive.Rig."
c("C45", "proved", [RG+x for x in ["C45_globals", "C45_acts_on_points", "C45_out_of_order_fails", "C45_locals_affine", "C45_rig_single",
  "C45_rig_blended"]])
c("C46", "proved", [RG+x for x in ["C46_weights_normalised", "C46_proportional", "C46_setWeights", "C46_average", "C46_identical",
  "C46_full_weight", "C46_average_between", "C46_unweighted_first_cancels", "C46_extra_weights", "C46_extra_weights_wrong_pose"]],
  "Proved with the conditions in the statement. Without them it is false: SetWeights with more weights than animations leaves a sum below one, and opposite quaternions cancel if the first animation has no weight; witnesses.")
c("C66", "proved", [RG+x for x in ["C66_child", "C66_time_remaining", "C66_before_animation", "C66_repeating_overflows"]] + [M4+"C66_matrix_time_remaining"],
  "One defect is shown: the end time of a repeating animation overflows.")
c("C67", "proved", [RG+x for x in ["C67_blendToAnim", "C67_blendToAnims", "C67_succeeds", "C67_one_bone_fails", "C67_copies_too_late"]],
  "Two defects are shown: an animation with one bone fails on a larger rig, and the copy of the previous animation is made after it has been replaced.")
TB = "Motive.Table."
c("C47", "proved", [TB+x for x in ["C47_query", "C47_success", "C47_dimensions", "C47_query_by_name", "C47_loaded_once", "C47_unique", "C47_table_entries", "C47_names_entries", "C47_too_many"]],
  "For all histories of loads with at most 65535 different animations; C47_too_many shows that the bound is needed.")
c("C48", "proved", [TB+x for x in ["C48_defining", "C48_gather", "C48_constant_animated", "C48_second_load", "C48_too_many"]],
  "For the first load of a table and up to 256 animations of an object; the other theorems show that the bounds are needed and that constants outside 0 to 1 become animated.")
UT = "Motive.Util."
c("C49", "proved", [UT+x for x in ["C49_times", "C49_search", "C49_terminates", "C49_derivatives", "C49_three_positions", "C49_turns_back"]],
  "Exact arithmetic in any normed space. With exactly three positions the function may not terminate (C49_three_positions); where the path turns back "
  "the derivative is undefined (C49_turns_back).")
c("C50", "proved", [UT+x for x in ["C50_array", "C50_quaternion", "C50_linear_nodes", "C50_step_nodes", "C50_cubic_nodes", "C50_quaternion_signs", "C50_quaternion_nodes",
  "C50_component_order", "C50_vector_constants", "C50_vector_curves", "C50_quaternion_constants", "C50_quaternion_ops", "C50_types", "C50_too_many", "C50_empty"]],
  "For keyframes that are at least one grain (1/65535 of the last time) apart; the bounds are those of the quantisation of spline nodes. Without keyframes the "
  "conversion is undefined (C50_empty).")
PL = "Motive.Pipeline."
OW = "Motive.Owner."
FL = "Motive.Float."
c("C51", "proved", [PL+x for x in ["C51_add_curve", "C51_add_curve_single", "C51_add_curve_accuracy", "C51_prune_nodes", "C51_prune_sublist",
  "C51_prune_ends", "C51_prune_tolerance_fails", "C51_add_curve_truncates"]],
  "With the conditions in the statement. Two defects are shown: a removed node may be further off than the tolerance, and sampled times between ticks are truncated.")
c("C52", "proved", [PL+x for x in ["C52_sum", "C52_prune_channels", "C52_sum_of_unequal_spans_fails", "C52_scales_are_added", "C52_quaternion_component_dropped"]],
  "With the conditions in the statement; the other theorems show that it is false without them.")
c("C68", "proved", [PL+x for x in ["C68_min", "C68_max", "C68_times", "C68_constant"]],
  "ShiftTime, ExtendChannelsToTime, MinAnimatedTime, MaxAnimatedTime as called by RunAnimPipeline.")
c("C69", "proved", [PL+x for x in ["C69_repeat", "C69_no_jump", "C69_too_many_bones"]],
  "The loop over bones is over a uint8_t; with 256 bones or more it does not end (unreachable from the exporter, which rejects them).")

c("C70", "proved", [PL+"C70_export", PL+"C70_accurate", PL+"C70_evaluate", PL+"C70_too_many_nodes"],
  "The conversion, the rounding of each key, the distance of the evaluated spline from the original cubic, and the failure at 65536 keys.")
c("C71", "proved", [PL+"C71_round_trip", PL+"C71_too_many_bones", PL+"C71_roots", PL+"C71_roots_fail", PL+"C71_float_spline_fails"],
  "Writer and reader composed. The FlatBuffers library is trusted to return the tables that were written. The last two are findings.")
c("C72", "proved", [PL+"C72_query", PL+"C72_no_bone", PL+"C72_imported", PL+"C72_invalid_answers"],
  "Operations of the invalid kind are excluded in the first theorem and shown to be matched by mistake in the last.")
c("C73", "proved", [M4+"C73_clone", M4+"C73_goes_on", M4+"C73_independent", M4+"C73_child_lost"],
  "Children are motivators of the processor model; the last theorem is the loss of children that cannot be cloned.")
c("C74", "proved", [PL+"C74_bones", PL+"C74_others", PL+"C74_animation"],
  "Nodes are told apart by their address; node trees are an inductive type, so sharing and cycles, which the FBX SDK excludes, do not occur.")
c("C77", "proved", [PL+"C77_prune_again", PL+"C77_two_scales_change"],
  "The second theorem shows that the condition on scales is needed.")
c("C75", "proved", [PL+"C75_transform", PL+"C75_transform_exact", PL+"C75_rotation_order", PL+"C75_rotations_do_not_cancel", PL+"C75_static", PL+"C75_scene"],
  "The FBX SDK is a parameter: what properties and curves return. C75_rotation_order says for which orders the rotation is right, and that it is wrong for the others.")
c("C76", "proved", [PL+"C76_curve", PL+"C76_constant", PL+"C76_last_slope_ignored", PL+"C76_outside_fails", PL+"C76_clipped", PL+"C76_meets"],
  "Curves are given by their keys and by what Evaluate and the derivatives return; for C76_constant the curve between two keys is the cubic with the slopes of the keys.")
c("C78", "proved", [E+"C78_one_time", E+"C78_succeeds", E+"C78_bones", E+"C78_bones_both", E+"C78_order_matters"],
  "The update of a slot is a parameter of C78_one_time; C78_bones fills in the matrix operations and the rig, C78_bones_both bones that are matrix or SQT motivators. The last theorem shows that the order of creation would not do.")
c("C79", "proved", [OW+"C79_parts_by_value", OW+"C79_never_fails", OW+"C79_one_owner", OW+"C79_nothing_left", OW+"C79_invalidate_children", OW+"C79_others_untouched", OW+"C79_standing_untouched", OW+"C79_defragment"],
  "Both levels are worlds of Verif.Proc; the meaning of the calls is a separate state without addresses (Nested).")
c("C80", "proved", [OW+"C80_growth_by_copy", OW+"C80_lost_child", OW+"C80_fails_for_springs"],
  "Whether std::vector copies depends on the exception specification of the vectors and matrices of mathfu, which is not in the repository.")
c("C81", "proved", [FL+"Angle.C81_add_sub", FL+"Angle.C81_laws", FL+"Angle.C81_constants", FL+"Angle.C81_sub_zero", FL+"Angle.C81_not_associative"],
  "Float layer: every operation rounded, without overflow, NaN and signed zero.")
c("C82", "proved", [FL+"Angle.C82_from_radians", FL+"Angle.C82_from_degrees", FL+"Angle.C82_scale", FL+"Angle.C82_clamp", FL+"Angle.C82_small_angle_lost", FL+"Angle.C82_large_fails", FL+"Angle.C82_clamp_changes"],
  "Float layer.")
c("C83", "proved", [FL+"Range.C83_normalize", FL+"Range.C83_wild", FL+"Range.C83_close", FL+"Range.C83_differences", FL+"Range.C83_lerp_ends", FL+"Range.C83_asymmetric_fails", FL+"Range.C83_positive_reaches_length"],
  "Float layer.")
c("C84", "proved", [FL+"Quantize.C84_x", FL+"Quantize.C84_x_monotone", FL+"Quantize.C84_y", FL+"Quantize.C84_y_ends", FL+"Quantize.C84_y_monotone", FL+"Quantize.C84_y_order_lost"],
  "Float layer; lengths of at least 2^-100. Derivatives (atan, tan) are not modelled with rounding.")
c("C85", "proved", [FL+"Time.C85_exact", FL+"Time.C85_division_of_time", FL+"Time.C85_forwards", FL+"Time.C85_drift", FL+"Time.C85_stops", FL+"Time.C85_stops_after_hours"],
  "Float layer; frames of at most 2^24 milliseconds where the conversion of the frame to float is to be exact.")
c("C86", "partial", ["Motive.Spline.TwoSteps.C86_one_step", "Motive.Spline.TwoSteps.C86_two_steps_partial", "Motive.Spline.TwoSteps.C86_many_splines", "Motive.Spline.TwoSteps.C86_two_steps_miss", "Motive.Spline.TwoSteps.C86_single_spline"],
  "The one-pass function is proved without restriction. The two-pass function is wrong beyond the stated bounds; the negations are proved.")
c("C87", "partial", [PL+"CommandLine.C87_accepts", PL+"CommandLine.C87_rejects_partial", PL+"CommandLine.C87_errors_forgiven", PL+"CommandLine.C87_any_order"],
  "Refusal is proved for lines without the axes and the unit; with them it is false, and the negation is proved.")
c("C88", "proved", ["Motive.Rig.Storage.C88_rig_objects", "Motive.Rig.Storage.C88_no_leak", "Motive.Rig.Storage.C88_initialize", "Motive.Rig.Storage.C88_kept", "Motive.Rig.Storage.C88_advance", "Motive.Rig.Storage.C88_deleted"],
  "About pointers and the heap; what rigs contain is the subject of other properties.")
c("C89", "proved", ["Motive.Proc.Vector.C89_dimensions_are_motivators", "Motive.Proc.Vector.C89_reads", "Motive.Proc.Vector.C89_target_time", "Motive.Proc.Vector.C89_same_failures", "Motive.Proc.Vector.C89_extra_dimension_overwrites"],
  "For processors in which a setter and a frame treat each slot by itself; C89_extra_dimension_overwrites shows what happens when a setter is given more dimensions than the motivator has.")
c("C90", "proved", ["Motive.Proc.Vector.C90_life", "Motive.Proc.Vector.C90_same_life", "Motive.Proc.Vector.C90_safety", "Motive.Proc.Vector.C90_overshoot_limits", "Motive.Proc.Vector.C90_springs_arrive", "Motive.Proc.Vector.C90_eases_arrive"],
  "The arrival of springs and ease motivators carries the conditions of C37 and C59.")
c("C91", "proved", ["Motive.SplineProc.C91_motivators_play", "Motive.SplineProc.C91_repeating_after_end", "Motive.SplineProc.C91_cleared_slots_run", "Motive.SplineProc.C91_untargeted_frame_fails"],
  "Values are real numbers; positions stay below 2^31 grains. C91_untargeted_frame_fails is a disagreement: a new spline motivator with no spline makes the next frame fail.")
c("C92", "proved", ["Motive.Float.Overshoot.C92_limits", "Motive.Float.Overshoot.C92_programs", "Motive.Float.Overshoot.C92_stays", "Motive.Float.Overshoot.C92_settles", "Motive.Float.Overshoot.C92_longest_step_fails", "Motive.Float.Overshoot.C92_slow_motion_stalls"],
  "Modular ranges are symmetric about 0. Overflow, NaN and the sign of zero are not modelled. C92_longest_step_fails and C92_slow_motion_stalls are disagreements.")
c("C93", "proved", ["Motive.Pipeline.Output.C93_status", "Motive.Pipeline.Output.C93_failure", "Motive.Pipeline.Output.C93_success", "Motive.Pipeline.Output.C93_reads_back", "Motive.Pipeline.Output.C93_stopped", "Motive.Pipeline.Output.C93_write_errors_ignored", "Motive.Pipeline.Output.C93_not_atomic"],
  "The functions of fplutil on names and the layout of the tables are arbitrary. C93_write_errors_ignored and C93_not_atomic are disagreements.")
c("C94", "proved", ["Motive.Pipeline.Defining.C94_round_trip", "Motive.Pipeline.Defining.C94_refuses", "Motive.Pipeline.Defining.C94_constants_lost", "Motive.Pipeline.Defining.C94_quaternions_fail", "Motive.Pipeline.Defining.C94_unsaved"],
  "C94_constants_lost, C94_quaternions_fail and C94_unsaved are disagreements.")
c("C95", "proved", ["Motive.Matrix4.C95_stage", "Motive.Matrix4.C95_initialize", "Motive.Matrix4.C95_program", "Motive.Matrix4.C95_no_jump", "Motive.Matrix4.C95_align", "Motive.Matrix4.C95_align_stops", "Motive.Matrix4.C95_sqt"],
  "Real arithmetic. Blends to constants; targets and splines in the new list are C41 and C91. C95_align_stops is a disagreement.")
c("C96", "proved", ["Motive.SplineProc.C96_plays", "Motive.SplineProc.C96_motivators_play", "Motive.SplineProc.C96_long_stride_fails"],
  "Real arithmetic; the rate is positive when the spline starts and not negative later. Extends C26, C57 and C91 to unbounded time, repeating splines and angles.")
c("C97", "proved", ["Motive.Matrix4.C97_program", "Motive.Matrix4.C97_initialize", "Motive.Matrix4.C97_no_jump", "Motive.Matrix4.C97_sqt"],
  "Real arithmetic. Frames are at most 32 s. Angles have at most two waypoints per target (C41). Blends in progress are C96.")
c("C98", "proved", ["Motive.Rig.C98_rig", "Motive.Rig.C98_runs", "Motive.Rig.C98_kinds_do_not_mix"],
  "Real arithmetic; mathfu::quat::FromMatrix is any function. Frames are at most 32 s. Splines are values: their storage is C40.")
c("C99", "proved", ["Motive.Float.Hermite.C99_value", "Motive.Float.Hermite.C99_slope", "Motive.Float.Hermite.C99_higher", "Motive.Float.Hermite.C99_start", "Motive.Float.Hermite.C99_flat", "Motive.Float.Hermite.C99_shift", "Motive.Float.Hermite.C99_end_inexact", "Motive.Float.Hermite.C99_spline_between", "Motive.Float.Hermite.C99_spline_node", "Motive.Float.Hermite.C99_spline_outside", "Motive.Float.Hermite.C99_spline_end", "Motive.Float.Hermite.C99_second_node_inexact"],
  "Overflow is not modelled; the operations of Init are rounded one by one; tan is any function to floats.")
c("C100", "proved", ["Motive.Matrix4.C100_children", "Motive.Matrix4.C100_result", "Motive.Matrix4.C100_matrix", "Motive.Matrix4.C100_read", "Motive.Matrix4.C100_runs", "Motive.Matrix4.C100_matrix_runs", "Motive.Matrix4.C100_initialize", "Motive.Matrix4.C100_reaches", "Motive.Matrix4.C100_initial_value_drops_motivator", "Motive.Matrix4.C100_blend_renumbers"],
  "Real arithmetic. The update of the result is a parameter; for SQT motivators it may fail (a quaternion of length 0, C44). C100_reaches: frames of at most 32 s.")
c("C101", "proved", ["Motive.Float.Hermite.C101_play", "Motive.Float.Hermite.C101_ends", "Motive.Float.Hermite.C101_samples", "Motive.Float.Hermite.C101_slow_motion_stalls"],
  "Rounding to nearest, exponents unbounded above; the operations of Init are not fused. Blending, modular ranges and negative rates are not covered.")
c("C102", "proved", ["Motive.Float.Hermite.C102_blend", "Motive.Float.Hermite.C102_start", "Motive.Float.Hermite.C102_far_into_segment_breaks"],
  "Rounding to nearest, exponents unbounded above; the operations of Init are not fused. Modular ranges are not covered.")
c("C103", "proved", ["Motive.Slot.OvershootSlot.C103_settles", "Motive.Slot.OvershootSlot.C103_round_settles", "Motive.Slot.OvershootSlot.C103_end_of_range_fails", "Motive.Slot.OvershootSlot.C103_long_steps_fail", "Motive.Slot.OvershootSlot.C103_undamped_fails"],
  "Exact arithmetic over any Archimedean ordered field.")
c("C104", "partial", ["Motive.Slot.C104_twitch_partial", "Motive.Slot.C104_settles_back", "Motive.Slot.C104_round_settles_back", "Motive.Slot.C104_settled_partial", "Motive.Slot.C104_other_motivators_fail", "Motive.Slot.C104_current_keeps_target", "Motive.Targets.C104_spline_left_alone", "Motive.Targets.C104_spline_stops", "Motive.Targets.C104_modular_spline_stops", "Motive.Targets.C104_stops_repeating_animation_fails"],
  "Proved of the overshoot motivator whose slots come first in the processor; false of the others (C104_other_motivators_fail) and of spline motivators, which get no boost but are stopped (C104_spline_stops, C104_stops_repeating_animation_fails). Constant, spring and ease motivators ignore Twitch, because their processors do not override SetTargets.")
c("C105", "partial", ["Motive.Rig.C105_channels", "Motive.Rig.C105_csv_partial", "Motive.Rig.C105_csv_time", "Motive.Rig.C105_local_partial", "Motive.Rig.C105_csv_overflows", "Motive.Rig.C105_csv_before_playing", "Motive.Rig.C105_more_operations", "Motive.Rig.C105_fewer_operations", "Motive.Rig.C105_time_since_longest", "Motive.Rig.C105_local_wrong_name", "Motive.Rig.C105_names_differ"],
  "Proved if the animations played so far have exactly the operations of the definition; false otherwise (C105_more_operations, C105_fewer_operations, C105_time_since_longest, C105_local_wrong_name). The formatting of numbers is left out.")
c("C106", "proved", ["Motive.Rig.C106_rates", "Motive.Rig.C106_extra_rates_fail", "Motive.Rig.C106_rate", "Motive.Rig.C106_repeating", "Motive.Rig.C106_before_animation", "Motive.Rig.C106_splines_repeat", "Motive.Rig.C106_splines_rate"],
  "What the operations of a bone do with a rate is C91 and C96.")
c("C107", "partial", ["Motive.SplineProc.C107_reads", "Motive.SplineProc.C107_motivators_read", "Motive.SplineProc.C107_greatest", "Motive.SplineProc.C107_target_time_partial", "Motive.SplineProc.C107_target_time_repeating", "Motive.SplineProc.C107_arrives_partial", "Motive.SplineProc.C107_set_time", "Motive.SplineProc.C107_no_spline_fails", "Motive.SplineProc.C107_target_time_ignores_the_rate", "Motive.SplineProc.C107_targets_ignore_the_offset", "Motive.SplineProc.C107_target_time_ignores_the_blend"],
  "TargetTime is right for a rate of 1 and without blends only, and TargetValue and Difference for splines that are neither scaled nor shifted: the negations are proved.")
c("C108", "proved", ["Motive.Matrix4.C108_counts_down", "Motive.Matrix4.C108_rest", "Motive.Rig.C108_rig_counts_down", "Motive.Rig.C108_rig_rests"],
  "The time of two units covers that TargetTime is rounded down and that the last node is reached after, not at, the end. At a rate r the animation needs TimeRemaining / r, as the documentation of matrices says; parts that are driven by targets are played at a rate of 1. Splines are over after the end of their last node, grains of at most 1 (splines of up to 65535 units).")
c("C109", "proved", ["Motive.Rig.C109_rates", "Motive.Rig.C109_paused_rig", "Motive.SplineProc.C109_paused", "Motive.SplineProc.C109_pause_jumps"],
  "That the pose stays as it is from the frame before the pause is false of the code: C109_pause_jumps. Rates of blends are not negative.")
c("C110", "proved", ["Motive.Splines.C110_ys", "Motive.Splines.C110_many_points", "Motive.Splines.C110_resample_ends", "Motive.Splines.C110_resample", "Motive.Splines.C110_resample_succeeds", "Motive.Splines.C110_overshoot_fails"],
  "That sampling always returns is false of the code for more than 65535 points (C110_many_points); that a spline can be created from every spline is false for curves that leave their y range (C110_overshoot_fails). Points within half a grain of a node may be taken from either side of it.")
c("C111", "proved", ["Motive.SplineProc.Whole.C111_life", "Motive.SplineProc.Whole.C111_same_life", "Motive.SplineProc.Whole.C111_failures", "Motive.SplineProc.Whole.C111_targets_are_followed", "Motive.SplineProc.Whole.C111_modular_targets_are_followed"],
  "Times and values are real numbers. The splines of the caller do not change while they are played. C111_failures assumes that they have room for seven nodes (kDefaultMaxNodes): a clone of a smaller one gives the motivator a local spline that a target of three nodes may not fit in.")
c("C112", "proved", ["Motive.Bench.C112_samples", "Motive.Bench.C112_report", "Motive.Bench.C112_output", "Motive.Bench.C112_average_overflow", "Motive.Bench.C112_counters_overflow", "Motive.Bench.C112_first_bar"],
  "The square root is that of real numbers; the text of the report is not modelled. C112_average_overflow, C112_counters_overflow and C112_first_bar are about what the bounds leave out.")
c("C113", "proved", ["Motive.Proc.C113_checks_never_fail", "Motive.Proc.C113_state_verified", "Motive.Proc.C113_checks_are_complete"],
  "The operations with the checks are defined beside those without (World.removeChecked, ...).")
c("C114", "proved", ["Motive.Matrix4.Nested.C114_own_motivators", "Motive.Matrix4.Nested.C114_memory_is_invisible", "Motive.Matrix4.Nested.C114_no_leaks", "Motive.Matrix4.Nested.C114_time_remaining", "Motive.Matrix4.Nested.C114_as_if_alone", "Motive.Matrix4.Nested.C114_kinds"],
  "The slots of the matrix processor itself are values (C39 and C90 are about those); those of the processors that the operations use are not.")
c("C115", "proved", ["Motive.Rig.Stored.C115_own_bones", "Motive.Rig.Stored.C115_memory_is_invisible", "Motive.Rig.Stored.C115_no_leaks", "Motive.Rig.Stored.C115_as_if_alone"],
  "The slots of the rig processor itself are values (C39 and C90 are about those); the matrix motivators of bones are those of C114, and the motivators of their operations those of the processors. SetPlaybackRate and SetRepeating skip invalid motivators, as matrix_motivator.h:164-174 does.")
c("C116", "partial", ["Motive.Slot.C116_overshoot_keeps_limits", "Motive.Slot.C116_overshoot_wraps", "Motive.Slot.C116_overshoot_settles", "Motive.Slot.C116_overshoot_frame", "Motive.Slot.C116_settled", "Motive.Slot.C116_missing_table_fails", "Motive.Slot.C116_hangs", "Motive.Slot.C116_spline_goes_straight", "Motive.Slot.C116_spline_wraps", "Motive.Slot.C116_spline_limits_ignored_fails", "Motive.Slot.C116_spline_missing_table_fails"],
  "The claim is false in three ways, each proved: a table without base or at_target makes the loader follow a null pointer, a max_delta_time that is not positive makes the first frame hang, and min and max have no effect on spline motivators that do not wrap around. Proved: everything else in the statement. Numbers are exact; wrap-around is for ranges symmetric about 0.")
c("C117", "partial", ["Motive.Graph.C117_draws_partial", "Motive.Graph.C117_curve_partial", "Motive.Graph.C117_reads_past_the_end", "Motive.Graph.C117_constant_curve_fails", "Motive.Graph.C117_axis_misplaced"],
  "The stars are proved right if the memory behind the points can be read and does not look like a point of the drawing. Otherwise the claim is false: every drawing reads past the end of its array of points (C117_reads_past_the_end), constant curves convert 0/0 to an integer, and the horizontal axis is misplaced. Numbers are exact.")
c("C118", "partial", ["Motive.Viewer.C118_pausing", "Motive.Viewer.C118_single_step", "Motive.Viewer.C118_in_turn", "Motive.Viewer.C118_next", "Motive.Viewer.C118_plays_through", "Motive.Viewer.C118_rate_reaches_rig", "Motive.Viewer.C118_rate_range", "Motive.Viewer.C118_rate_keys", "Motive.Viewer.C118_no_animation", "Motive.Viewer.C118_cursor_keys_reversed", "Motive.Viewer.C118_fast_rate_drops", "Motive.Viewer.C118_slow_rate_rises", "Motive.Viewer.C118_starts_while_paused"],
  "Pausing, stepping and the order of animations are proved for all sessions and any rig. False of the code: the message of controls names the cursor keys the wrong way round (C118_cursor_keys_reversed); rates that the command line accepts but the keys do not reach jump at the first key (C118_fast_rate_drops, C118_slow_rate_rises).")
c("C119", "partial", ["Motive.Viewer.C119_turn", "Motive.Viewer.C119_orbit", "Motive.Viewer.C119_zoom_and_pan", "Motive.Viewer.C119_pan_right", "Motive.Viewer.C119_start_depth", "Motive.Viewer.C119_fast_drag_fails", "Motive.Viewer.C119_point_model_fails", "Motive.Viewer.C119_pan_does_not_return", "Motive.Viewer.C119_model_cut_off"],
  "Proved for drags below 600 pixels per frame, beyond which an assertion fails, and models that are more than the point 0. False of the code: panning back does not return (C119_pan_does_not_return) and the model can be cut off at the start (C119_model_cut_off). Numbers are exact.")
c("C120", "partial", ["Motive.Viewer.CommandLine.C120_accepts", "Motive.Viewer.CommandLine.C120_safe", "Motive.Viewer.CommandLine.C120_refuses", "Motive.Viewer.CommandLine.C120_unknown_option", "Motive.Viewer.CommandLine.C120_unknown_option_witness", "Motive.Viewer.CommandLine.C120_nan_rate"],
  "Lines written as the usage message says are proved to be accepted and to have that effect. False of the code: unknown options are ignored together with their value (C120_unknown_option), among them -f, which the message documents, and a rate that is not a number passes the check of limits (C120_nan_rate).")
c("C121", "partial", ["Motive.Rig.Wrap.C121_debug_times", "Motive.Rig.Wrap.C121_time_remaining", "Motive.Rig.Wrap.C121_short_programs", "Motive.Rig.Wrap.C121_said_to_be_endless", "Motive.Rig.Wrap.C121_repeating", "Motive.Rig.Wrap.C121_long_programs_overflow"],
  "In arithmetic that wraps around, as the comment in the code assumes, proved for the times in debugging output. False for TimeRemaining, which compares an absolute time with kMotiveTimeEndless (C121_said_to_be_endless, C121_repeating). By the standard, signed overflow is undefined, and every program reaches it (C121_long_programs_overflow); shorter programs are proved not to.")
c("C122", "partial", ["Motive.InitCopy.C122_reads_original", "Motive.InitCopy.C122_own_values_partial", "Motive.InitCopy.C122_copy_partial", "Motive.InitCopy.C122_original_gone", "Motive.InitCopy.C122_vector_grows", "Motive.InitCopy.C122_reads_other"],
  "Proved for structs that are not copies, and for copies while the original lives. False otherwise: a copy points into the original (C122_original_gone, C122_vector_grows, C122_reads_other).")
c("C123", "partial", ["Motive.Splines.Packed.C123_packed", "Motive.Splines.Packed.C123_closed", "Motive.Splines.Packed.C123_one_free_place", "Motive.Splines.Packed.C123_documented_check_fails", "Motive.Splines.Packed.C123_documented_result"],
  "The first half is proved for all buffers. The second half, on which the loop in the comment of Finalize rests, is false: AddNode may need two places (C123_one_free_place, C123_documented_check_fails). The comment also returns the bytes that are left as the bytes consumed (C123_documented_result).")
c("C124", "partial", ["Motive.Slot.C124_ease_time", "Motive.Slot.C124_ease_shape", "Motive.Slot.C124_ease_negative", "Motive.Slot.C124_spring_time", "Motive.Slot.C124_spring_not_there"],
  "Proved of ease motivators until they arrive; afterwards the time left is negative (C124_ease_negative). False of spring motivators, which always report minus the time since the last target, and the empty shape (C124_spring_time, C124_spring_not_there).")
c("C125", "partial", ["Motive.Spline.Neon.C125_update_partial", "Motive.Spline.Neon.C125_update_past_end", "Motive.Spline.Neon.C125_update_loses_registers", "Motive.Spline.Neon.C125_evaluate_first_four", "Motive.Spline.Neon.C125_evaluate_partial", "Motive.Spline.Neon.C125_evaluate_wrong", "Motive.Spline.Neon.C125_evaluate_loses_register", "Motive.Spline.Neon.C125_declared_update_faults", "Motive.Spline.Neon.C125_declared_evaluate_faults", "Motive.Spline.Neon.C125_unaligned_faults", "Motive.Spline.Neon.C125_unaligned_cubics_fault"],
  "Proved of the update for documented arguments and aligned arrays with room for whole groups of four, and of the evaluation for at most four splines. False otherwise: more splines are evaluated with the first four cubics, memory past the end is written, r4, r5 and r10 are lost, arrays that are not aligned fault, and the arguments that C++ passes are not those the assembly reads, so that its calls always fault. Plain builds never get there, since optimization_ is never set.")
c("C126", "partial", ["Motive.Math.RangeInt.C126_normalise_partial", "Motive.Math.RangeInt.C126_normalise_wide", "Motive.Math.RangeInt.C126_middle", "Motive.Math.RangeInt.C126_longest", "Motive.Math.RangeInt.C126_middle_rounded_up", "Motive.Math.RangeInt.C126_full", "Motive.Math.RangeInt.C126_empty", "Motive.Math.RangeInt.C126_covers", "Motive.Math.RangeInt.C126_covers_too_much", "Motive.Math.RangeInt.C126_shortest_is_first", "Motive.Math.RangeInt.C126_closest_does_not_clamp", "Motive.Math.RangeInt.C126_percent_is_zero"],
  "Proved of NormalizeWildValue for lengths below 2^24 (false beyond, C126_normalise_wide), IndexOfLongest, and of Middle up to the direction of rounding. False of the rest, because std::numeric_limits<int>::infinity() is 0 and division truncates; what these functions return instead is proved.")
c("C127", "partial", ["Motive.Math.Range.C127_split", "Motive.Math.Range.C127_tolerance", "Motive.Math.Range.C127_scale_partial", "Motive.Math.Range.C127_scale_negative", "Motive.Math.Range.C127_create_valid", "Motive.Math.Angle.C127_order", "Motive.Math.Angle.C127_equal", "Motive.Math.Angle.C127_order_not_kept_by_turns"],
  "Exact arithmetic. False of multiplying a range by a negative number: the result is invalid (C127_scale_negative).")
c("C128", "partial", ["Motive.Slot.Linear.C128_linear_partial", "Motive.Slot.Linear.C128_linear_from_current_partial", "Motive.Slot.Linear.C128_rests", "Motive.Slot.Linear.C128_overshoots", "Motive.Slot.Linear.C128_current_jumps_back", "Motive.Slot.Linear.C128_target_time_of_first"],
  "Proved while the frames do not pass the target time, and from the frame after. False of the frame that passes it (C128_overshoots), of Current1f (C128_current_jumps_back) and of the time left of several dimensions (C128_target_time_of_first). Exact arithmetic.")
c("C129", "partial", ["Motive.Curve.Retarget.C129_energy", "Motive.Curve.Retarget.C129_arrives", "Motive.Curve.Retarget.C129_never_there", "Motive.Curve.Retarget.C129_duck", "Motive.Curve.Retarget.C129_follows", "Motive.Curve.Retarget.C129_follows_rounded", "Motive.Curve.Retarget.C129_any_frames"],
  "The limit and the bound are proved, the first with the exact rate, for one dimension in exact arithmetic without the rounding of the nodes to 16 bits; C129_follows_rounded allows for an error in every frame, such as that rounding, whose size it takes as given. The second sentence is false (C129_never_there, C129_duck).")
c("C130", "partial", ["Motive.Util.C130_aligned_partial", "Motive.Util.C130_null_on_x86", "Motive.Util.C130_other_alignments"],
  "Proved for alignments that are powers of two on platforms where sizeof(max_align_t) is a power of two; false of others (C130_null_on_x86, C130_other_alignments). posix_memalign is modelled by its specification; the branch for Visual C++ is not modelled.")
c("C131", "partial", ["Motive.Viewer.Skin.C131_mean", "Motive.Viewer.Skin.C131_moves_with_bones", "Motive.Viewer.Skin.C131_rigid", "Motive.Viewer.Skin.C131_without_bones", "Motive.Viewer.Skin.C131_normals_stay", "Motive.Viewer.Skin.C131_normals_wrong"],
  "Proved of positions, in exact arithmetic. False of normals (C131_normals_stay, C131_normals_wrong). Which transforms reach the shader is up to FPLBase.")
c("C132", "partial", ["Motive.Math.RangeUInt.C132_works_partial", "Motive.Math.RangeUInt.C132_middle_outside", "Motive.Math.RangeUInt.C132_distance_below", "Motive.Math.RangeUInt.C132_direct_difference", "Motive.Math.RangeUInt.C132_covers_from_zero"],
  "Proved of Length, Clamp, Middle of bounds with a sum below 2^32 and the distance of values above the range; false of the rest, and what these functions return instead is proved.")
c("C133", "partial", ["Motive.Math.RangeDouble.C133_normalise_partial", "Motive.Math.RangeDouble.C133_nearest_float", "Motive.Math.RangeDouble.C133_changed", "Motive.Math.RangeDouble.C133_end_fails", "Motive.Math.RangeDouble.C133_rounds", "Motive.Math.RangeDouble.C133_fails", "Motive.Math.RangeDouble.C133_float_bounds", "Motive.Math.RangeDouble.C133_start_fails"],
  "Proved if the result is a float. False otherwise: the result is rounded to float, so values in the range change and the assertion can fail at both ends of the range.")
with open(os.path.join(ROOT, "MANIFEST.json"), "w") as f:
    T.sort(key=lambda x: x["property"])
    json.dump({"claims": T}, f, indent=1)
    f.write("\n")

# lean/Verif/Audit.lean: checks, while it is built, what each theorem above rests on
mods = [l for l in open(os.path.join(ROOT, "lean/Verif.lean")).read().split("\n") if l.startswith("import ") and l != "import Verif.Audit"]
names = [t for cl in T for t in cl["theorems"]]
with open(os.path.join(ROOT, "lean/Verif/Audit.lean"), "w") as f:
    f.write("import Lean.Util.CollectAxioms\nimport Lean.Elab.Command\n" + "\n".join(mods) + """

/-!
Generated by tools/manifest.py. The build of this file fails if a theorem of MANIFEST.json rests on anything but
`propext`, `Classical.choice` and `Quot.sound`.
-/

open Lean Elab Command in
elab "#audit " ids:ident* : command => do
  for id in ids do
    let n := id.getId
    unless (← getEnv).contains n do throwError "unknown theorem {n}"
    for a in ← liftCoreM (collectAxioms n) do
      unless a == ``propext || a == ``Classical.choice || a == ``Quot.sound do throwError "{n} rests on {a}"

#audit
""" + "\n".join("  " + n for n in names) + "\n")
