import Lean.Util.CollectAxioms
import Lean.Elab.Command
import Verif.Alloc.Model
import Verif.Alloc.Lemmas
import Verif.Alloc.AllocFree
import Verif.Alloc.Consolidate
import Verif.Alloc.Defrag
import Verif.Alloc.Principle
import Verif.Alloc.Spec
import Verif.Alloc.ClientLemmas
import Verif.Alloc.Props
import Verif.Proc.Model
import Verif.Proc.Lemmas
import Verif.Proc.Spec
import Verif.Proc.World
import Verif.Proc.Props
import Verif.Engine.Model
import Verif.Engine.Props
import Verif.Math.Range
import Verif.Math.RangeProps
import Verif.Math.RangeSets
import Verif.Math.Angle
import Verif.Math.AngleProps
import Verif.Curve.Model
import Verif.Curve.Props
import Verif.Curve.Roots
import Verif.Curve.RootProps
import Verif.Curve.DualCubic
import Verif.Curve.DualProps
import Verif.Math.FloatBits
import Verif.Spline.Model
import Verif.Spline.NodeProps
import Verif.Spline.AddProps
import Verif.Spline.IndexProps
import Verif.Spline.EvalProps
import Verif.Spline.Layout
import Verif.Spline.Bulk
import Verif.Spline.BulkProps
import Verif.Spline.BulkMove
import Verif.Spline.BulkBlend
import Verif.Curve.Ease
import Verif.Curve.RootScale
import Verif.Curve.EaseProps
import Verif.Curve.Spring
import Verif.Curve.SpringProps
import Verif.Curve.SpringStart
import Verif.Curve.SpringInc
import Verif.Slot.Spring
import Verif.Slot.SpringProps
import Verif.Slot.Ease
import Verif.Slot.EaseProps
import Verif.Proc.Partial
import Verif.Slot.Overshoot
import Verif.Slot.OvershootProps
import Verif.Slot.OvershootFrames
import Verif.Slot.Const
import Verif.Spline.BulkRange
import Verif.Proc.Clean
import Verif.SplineProc.Ownership
import Verif.SplineProc.OwnershipProps
import Verif.SplineProc.Target
import Verif.SplineProc.SetTarget
import Verif.SplineProc.SetTargetProps
import Verif.SplineProc.SetTargetLimits
import Verif.Matrix.Ops
import Verif.Matrix.Blend
import Verif.Matrix.BlendProps
import Verif.Matrix.Sqt
import Verif.Matrix.SqtProps
import Verif.Rig.Globals
import Verif.Rig.Average
import Verif.Rig.Data
import Verif.Rig.Props
import Verif.Rig.Time
import Verif.Table.Load
import Verif.Table.LoadProps
import Verif.Table.Defining
import Verif.Table.DefiningProps
import Verif.Util.ConstSpeed
import Verif.Util.ConstSpeedProps
import Verif.Util.Keyframes
import Verif.Util.KeyframesProps
import Verif.Util.KeyframesSpline
import Verif.Util.KeyframesCurves
import Verif.Pipeline.Nodes
import Verif.Pipeline.NodesProps
import Verif.Pipeline.PruneProps
import Verif.Pipeline.Channels
import Verif.Pipeline.SumProps
import Verif.Pipeline.ChannelsProps
import Verif.Pipeline.Timing
import Verif.Pipeline.Repeat
import Verif.Pipeline.Export
import Verif.Pipeline.RoundTrip
import Verif.Pipeline.Query
import Verif.Matrix.Clone
import Verif.Pipeline.Scene
import Verif.Pipeline.Again
import Verif.Pipeline.Fbx
import Verif.Pipeline.FbxCurve
import Verif.Engine.Frame
import Verif.Engine.FrameBones
import Verif.Engine.FrameSqt
import Verif.Owner.Props
import Verif.Float.Basic
import Verif.Float.Angle
import Verif.Float.AngleWrap
import Verif.Float.Range
import Verif.Float.Quantize
import Verif.Float.Time
import Verif.Spline.TwoSteps
import Verif.Pipeline.Args
import Verif.Rig.Storage
import Verif.Proc.Vector
import Verif.Proc.Lineage
import Verif.Proc.Instances
import Verif.SplineProc.Playing
import Verif.Float.Overshoot
import Verif.Float.OvershootPrograms
import Verif.Pipeline.Output
import Verif.Pipeline.DefiningFile
import Verif.Matrix.SplineDriver
import Verif.SplineProc.Forever
import Verif.Matrix.Clip
import Verif.Rig.Clip
import Verif.Float.Cubic
import Verif.Float.SplineEval
import Verif.Matrix.Children
import Verif.Float.PlayMove
import Verif.Float.Blend
import Verif.Float.BlendMove
import Verif.Slot.OvershootSettle
import Verif.Slot.OvershootRound
import Verif.Slot.Twitch
import Verif.Rig.Debug
import Verif.Rig.Rates
import Verif.Rig.RatesBones
import Verif.SplineProc.Ahead
import Verif.SplineProc.Twitch
import Verif.SplineProc.Again
import Verif.Matrix.Rest
import Verif.Rig.Rest
import Verif.Matrix.Pace
import Verif.Rig.Pace
import Verif.SplineProc.Pause
import Verif.Rig.Pause
import Verif.Spline.Resample
import Verif.SplineProc.Whole
import Verif.Util.Benchmark
import Verif.Proc.Verify
import Verif.Matrix.Nested
import Verif.Rig.Stored
import Verif.Slot.Params
import Verif.Curve.Graph
import Verif.Curve.EaseAny
import Verif.Curve.RootRange
import Verif.Curve.EaseRange
import Verif.Viewer.Play
import Verif.Viewer.Camera
import Verif.Viewer.Args
import Verif.Rig.Wrap
import Verif.Util.InitCopy
import Verif.Spline.Packed
import Verif.Slot.TimeLeft
import Verif.Spline.Neon
import Verif.Math.RangeInt
import Verif.Math.RangeMore
import Verif.Slot.Linear
import Verif.Curve.Retarget
import Verif.Curve.RetargetFrames
import Verif.Util.Aligned
import Verif.Viewer.Skin
import Verif.Math.RangeUInt
import Verif.Math.RangeDouble

/-!
Generated by tools/manifest.py. The build of this file fails if a theorem of MANIFEST.json rests on anything but
`propext`, `Classical.choice` and `Quot.sound`.
-/

open Lean Elab Command in
elab "#audit " ids:ident* : command => do
  for id in ids do
    let n := id.getId
    unless (← getEnv).contains n do throwError "unknown theorem {n}"
    for a in ← liftCoreM (collectAxioms n) do
      unless a == ``propext || a == ``Classical.choice || a == ``Quot.sound do throwError "{n} rests on {a}"

#audit
  Motive.Alloc.C01_blocks_tile
  Motive.Alloc.C02_alloc_best_fit
  Motive.Alloc.C03_defragment_terminates
  Motive.Alloc.C04_defragment_no_holes
  Motive.Alloc.C05_defragment_moves_data
  Motive.Alloc.C05_refines_buffers
  Motive.Proc.C06_handles_sane
  Motive.Proc.C06_checks_exact
  Motive.Proc.C07_disjoint_storage
  Motive.Proc.C07_no_leak
  Motive.Proc.C08_compaction_invisible
  Motive.Proc.C09_non_interference
  Motive.Proc.C10_move_assign
  Motive.Proc.C10_move_construct
  Motive.Matrix4.C100_children
  Motive.Matrix4.C100_result
  Motive.Matrix4.C100_matrix
  Motive.Matrix4.C100_read
  Motive.Matrix4.C100_runs
  Motive.Matrix4.C100_matrix_runs
  Motive.Matrix4.C100_initialize
  Motive.Matrix4.C100_reaches
  Motive.Matrix4.C100_initial_value_drops_motivator
  Motive.Matrix4.C100_blend_renumbers
  Motive.Float.Hermite.C101_play
  Motive.Float.Hermite.C101_ends
  Motive.Float.Hermite.C101_samples
  Motive.Float.Hermite.C101_slow_motion_stalls
  Motive.Float.Hermite.C102_blend
  Motive.Float.Hermite.C102_start
  Motive.Float.Hermite.C102_far_into_segment_breaks
  Motive.Slot.OvershootSlot.C103_settles
  Motive.Slot.OvershootSlot.C103_round_settles
  Motive.Slot.OvershootSlot.C103_end_of_range_fails
  Motive.Slot.OvershootSlot.C103_long_steps_fail
  Motive.Slot.OvershootSlot.C103_undamped_fails
  Motive.Slot.C104_twitch_partial
  Motive.Slot.C104_settles_back
  Motive.Slot.C104_round_settles_back
  Motive.Slot.C104_settled_partial
  Motive.Slot.C104_other_motivators_fail
  Motive.Slot.C104_current_keeps_target
  Motive.Targets.C104_spline_left_alone
  Motive.Targets.C104_spline_stops
  Motive.Targets.C104_modular_spline_stops
  Motive.Targets.C104_stops_repeating_animation_fails
  Motive.Rig.C105_channels
  Motive.Rig.C105_csv_partial
  Motive.Rig.C105_csv_time
  Motive.Rig.C105_local_partial
  Motive.Rig.C105_csv_overflows
  Motive.Rig.C105_csv_before_playing
  Motive.Rig.C105_more_operations
  Motive.Rig.C105_fewer_operations
  Motive.Rig.C105_time_since_longest
  Motive.Rig.C105_local_wrong_name
  Motive.Rig.C105_names_differ
  Motive.Rig.C106_rates
  Motive.Rig.C106_extra_rates_fail
  Motive.Rig.C106_rate
  Motive.Rig.C106_repeating
  Motive.Rig.C106_before_animation
  Motive.Rig.C106_splines_repeat
  Motive.Rig.C106_splines_rate
  Motive.SplineProc.C107_reads
  Motive.SplineProc.C107_motivators_read
  Motive.SplineProc.C107_greatest
  Motive.SplineProc.C107_target_time_partial
  Motive.SplineProc.C107_target_time_repeating
  Motive.SplineProc.C107_arrives_partial
  Motive.SplineProc.C107_set_time
  Motive.SplineProc.C107_no_spline_fails
  Motive.SplineProc.C107_target_time_ignores_the_rate
  Motive.SplineProc.C107_targets_ignore_the_offset
  Motive.SplineProc.C107_target_time_ignores_the_blend
  Motive.Matrix4.C108_counts_down
  Motive.Matrix4.C108_rest
  Motive.Rig.C108_rig_counts_down
  Motive.Rig.C108_rig_rests
  Motive.Rig.C109_rates
  Motive.Rig.C109_paused_rig
  Motive.SplineProc.C109_paused
  Motive.SplineProc.C109_pause_jumps
  Motive.Proc.C11_clone
  Motive.Splines.C110_ys
  Motive.Splines.C110_many_points
  Motive.Splines.C110_resample_ends
  Motive.Splines.C110_resample
  Motive.Splines.C110_resample_succeeds
  Motive.Splines.C110_overshoot_fails
  Motive.SplineProc.Whole.C111_life
  Motive.SplineProc.Whole.C111_same_life
  Motive.SplineProc.Whole.C111_failures
  Motive.SplineProc.Whole.C111_targets_are_followed
  Motive.SplineProc.Whole.C111_modular_targets_are_followed
  Motive.Bench.C112_samples
  Motive.Bench.C112_report
  Motive.Bench.C112_output
  Motive.Bench.C112_average_overflow
  Motive.Bench.C112_counters_overflow
  Motive.Bench.C112_first_bar
  Motive.Proc.C113_checks_never_fail
  Motive.Proc.C113_state_verified
  Motive.Proc.C113_checks_are_complete
  Motive.Matrix4.Nested.C114_own_motivators
  Motive.Matrix4.Nested.C114_memory_is_invisible
  Motive.Matrix4.Nested.C114_no_leaks
  Motive.Matrix4.Nested.C114_time_remaining
  Motive.Matrix4.Nested.C114_as_if_alone
  Motive.Matrix4.Nested.C114_kinds
  Motive.Rig.Stored.C115_own_bones
  Motive.Rig.Stored.C115_memory_is_invisible
  Motive.Rig.Stored.C115_no_leaks
  Motive.Rig.Stored.C115_as_if_alone
  Motive.Slot.C116_overshoot_keeps_limits
  Motive.Slot.C116_overshoot_wraps
  Motive.Slot.C116_overshoot_settles
  Motive.Slot.C116_overshoot_frame
  Motive.Slot.C116_settled
  Motive.Slot.C116_missing_table_fails
  Motive.Slot.C116_hangs
  Motive.Slot.C116_spline_goes_straight
  Motive.Slot.C116_spline_wraps
  Motive.Slot.C116_spline_limits_ignored_fails
  Motive.Slot.C116_spline_missing_table_fails
  Motive.Graph.C117_draws_partial
  Motive.Graph.C117_curve_partial
  Motive.Graph.C117_reads_past_the_end
  Motive.Graph.C117_constant_curve_fails
  Motive.Graph.C117_axis_misplaced
  Motive.Viewer.C118_pausing
  Motive.Viewer.C118_single_step
  Motive.Viewer.C118_in_turn
  Motive.Viewer.C118_next
  Motive.Viewer.C118_plays_through
  Motive.Viewer.C118_rate_reaches_rig
  Motive.Viewer.C118_rate_range
  Motive.Viewer.C118_rate_keys
  Motive.Viewer.C118_no_animation
  Motive.Viewer.C118_cursor_keys_reversed
  Motive.Viewer.C118_fast_rate_drops
  Motive.Viewer.C118_slow_rate_rises
  Motive.Viewer.C118_starts_while_paused
  Motive.Viewer.C119_turn
  Motive.Viewer.C119_orbit
  Motive.Viewer.C119_zoom_and_pan
  Motive.Viewer.C119_pan_right
  Motive.Viewer.C119_start_depth
  Motive.Viewer.C119_fast_drag_fails
  Motive.Viewer.C119_point_model_fails
  Motive.Viewer.C119_pan_does_not_return
  Motive.Viewer.C119_model_cut_off
  Motive.Proc.C12_destroy_resets
  Motive.Viewer.CommandLine.C120_accepts
  Motive.Viewer.CommandLine.C120_safe
  Motive.Viewer.CommandLine.C120_refuses
  Motive.Viewer.CommandLine.C120_unknown_option
  Motive.Viewer.CommandLine.C120_unknown_option_witness
  Motive.Viewer.CommandLine.C120_nan_rate
  Motive.Rig.Wrap.C121_debug_times
  Motive.Rig.Wrap.C121_time_remaining
  Motive.Rig.Wrap.C121_short_programs
  Motive.Rig.Wrap.C121_said_to_be_endless
  Motive.Rig.Wrap.C121_repeating
  Motive.Rig.Wrap.C121_long_programs_overflow
  Motive.InitCopy.C122_reads_original
  Motive.InitCopy.C122_own_values_partial
  Motive.InitCopy.C122_copy_partial
  Motive.InitCopy.C122_original_gone
  Motive.InitCopy.C122_vector_grows
  Motive.InitCopy.C122_reads_other
  Motive.Splines.Packed.C123_packed
  Motive.Splines.Packed.C123_closed
  Motive.Splines.Packed.C123_one_free_place
  Motive.Splines.Packed.C123_documented_check_fails
  Motive.Splines.Packed.C123_documented_result
  Motive.Slot.C124_ease_time
  Motive.Slot.C124_ease_shape
  Motive.Slot.C124_ease_negative
  Motive.Slot.C124_spring_time
  Motive.Slot.C124_spring_not_there
  Motive.Spline.Neon.C125_update_partial
  Motive.Spline.Neon.C125_update_past_end
  Motive.Spline.Neon.C125_update_loses_registers
  Motive.Spline.Neon.C125_evaluate_first_four
  Motive.Spline.Neon.C125_evaluate_partial
  Motive.Spline.Neon.C125_evaluate_wrong
  Motive.Spline.Neon.C125_evaluate_loses_register
  Motive.Spline.Neon.C125_declared_update_faults
  Motive.Spline.Neon.C125_declared_evaluate_faults
  Motive.Spline.Neon.C125_unaligned_faults
  Motive.Spline.Neon.C125_unaligned_cubics_fault
  Motive.Math.RangeInt.C126_normalise_partial
  Motive.Math.RangeInt.C126_normalise_wide
  Motive.Math.RangeInt.C126_middle
  Motive.Math.RangeInt.C126_longest
  Motive.Math.RangeInt.C126_middle_rounded_up
  Motive.Math.RangeInt.C126_full
  Motive.Math.RangeInt.C126_empty
  Motive.Math.RangeInt.C126_covers
  Motive.Math.RangeInt.C126_covers_too_much
  Motive.Math.RangeInt.C126_shortest_is_first
  Motive.Math.RangeInt.C126_closest_does_not_clamp
  Motive.Math.RangeInt.C126_percent_is_zero
  Motive.Math.Range.C127_split
  Motive.Math.Range.C127_tolerance
  Motive.Math.Range.C127_scale_partial
  Motive.Math.Range.C127_scale_negative
  Motive.Math.Range.C127_create_valid
  Motive.Math.Angle.C127_order
  Motive.Math.Angle.C127_equal
  Motive.Math.Angle.C127_order_not_kept_by_turns
  Motive.Slot.Linear.C128_linear_partial
  Motive.Slot.Linear.C128_linear_from_current_partial
  Motive.Slot.Linear.C128_rests
  Motive.Slot.Linear.C128_overshoots
  Motive.Slot.Linear.C128_current_jumps_back
  Motive.Slot.Linear.C128_target_time_of_first
  Motive.Curve.Retarget.C129_energy
  Motive.Curve.Retarget.C129_arrives
  Motive.Curve.Retarget.C129_never_there
  Motive.Curve.Retarget.C129_duck
  Motive.Curve.Retarget.C129_follows
  Motive.Curve.Retarget.C129_follows_rounded
  Motive.Curve.Retarget.C129_any_frames
  Motive.Engine.C13_one_per_type
  Motive.Engine.C13_same_processor
  Motive.Engine.C13_first_registration_wins
  Motive.Engine.C13_null_iff_unregistered
  Motive.Util.C130_aligned_partial
  Motive.Util.C130_null_on_x86
  Motive.Util.C130_other_alignments
  Motive.Viewer.Skin.C131_mean
  Motive.Viewer.Skin.C131_moves_with_bones
  Motive.Viewer.Skin.C131_rigid
  Motive.Viewer.Skin.C131_without_bones
  Motive.Viewer.Skin.C131_normals_stay
  Motive.Viewer.Skin.C131_normals_wrong
  Motive.Math.RangeUInt.C132_works_partial
  Motive.Math.RangeUInt.C132_middle_outside
  Motive.Math.RangeUInt.C132_distance_below
  Motive.Math.RangeUInt.C132_direct_difference
  Motive.Math.RangeUInt.C132_covers_from_zero
  Motive.Math.RangeDouble.C133_normalise_partial
  Motive.Math.RangeDouble.C133_nearest_float
  Motive.Math.RangeDouble.C133_changed
  Motive.Math.RangeDouble.C133_end_fails
  Motive.Math.RangeDouble.C133_rounds
  Motive.Math.RangeDouble.C133_fails
  Motive.Math.RangeDouble.C133_float_bounds
  Motive.Math.RangeDouble.C133_start_fails
  Motive.Engine.C14_advance_order
  Motive.Engine.C15_reset_then_advance_is_use_after_free
  Motive.Engine.C15_reset_then_processor_is_use_after_free
  Motive.Engine.C15_always_fails_after_reset
  Motive.Engine.C15_reset_partial
  Motive.Math.Range.C16_normalise
  Motive.Math.Range.C16_normalize_domain
  Motive.Math.Range.C17_modular_differences
  Motive.Math.Range.C18_intersect
  Motive.Math.Range.C18_union
  Motive.Math.Range.C18_include
  Motive.Math.Range.C18_clamp
  Motive.Math.Range.C18_values_in_range
  Motive.Math.Range.C18_intersect_ranges
  Motive.Math.Range.C18_intersect_ranges_points
  Motive.Math.Angle.C19_operations
  Motive.Math.Angle.C19_group
  Motive.Math.Angle.C19_equal_iff_congruent
  Motive.Math.Angle.C19_degrees_round_trip
  Motive.Math.Angle.C20_clamp
  Motive.Splines.C21_x_accurate
  Motive.Splines.C21_y_accurate
  Motive.Splines.C21_derivative_accurate
  Motive.Splines.C21_exact_on_grid
  Motive.Splines.C21_make
  Motive.Splines.C21_y_not_closest
  Motive.Splines.Spline.C22_nodes_sorted
  Motive.Splines.Spline.C22_plain_additions_succeed
  Motive.Splines.Spline.C22_two_slots_suffice
  Motive.Splines.Spline.C22_equal_neighbours
  Motive.Splines.Packed.C22_clear_starts_over
  Motive.Splines.Spline.C23_index_for_x
  Motive.Splines.Spline.C23_clamp_index
  Motive.Splines.Spline.C23_guess_irrelevant
  Motive.Splines.Spline.C23_guess_matters_on_nodes
  Motive.Splines.Spline.C24_repeat
  Motive.Splines.Spline.C24_zero_length_fails
  Motive.Splines.Spline.C25_inside_segment
  Motive.Splines.Spline.C25_at_node
  Motive.Splines.Spline.C25_at_isolated_node
  Motive.Splines.Spline.C25_outside
  Motive.Splines.Spline.C25_segments_join
  Motive.Splines.Spline.C25_window_uses_neighbour
  Motive.Splines.Slot.C26_bulk_agrees
  Motive.Splines.Slot.C26_bulk_agrees_repeating
  Motive.Splines.Evaluator.C27_move
  Motive.Splines.Evaluator.C27_move_future
  Motive.Splines.Evaluator.C27_copy
  Motive.Splines.Evaluator.C27_move_right_overlapping
  Motive.Splines.Layout.C28_size_holds
  Motive.Splines.Layout.C28_size_not_smallest
  Motive.Splines.Layout.C28_size_smallest_odd
  Motive.Splines.Layout.C28_array_disjoint
  Motive.Splines.Layout.C28_arraySize_too_small
  Motive.Splines.Layout.C28_arraySize_partial
  Motive.Curve.C29_derivatives
  Motive.Curve.C29_hermite
  Motive.Curve.C29_hermite_degenerate
  Motive.Curve.C29_quadratic_init
  Motive.Curve.C29_transforms
  Motive.Curve.Quad.C30_roots_partial
  Motive.Curve.Quad.C30_two_roots
  Motive.Curve.Quad.C30_ranges_matching_sign_partial
  Motive.Curve.Quad.C30_roots_inexact
  Motive.Curve.Quad.C30_zero_quadratic
  Motive.Curve.Quad.C30_ranges_root_at_limit
  Motive.Curve.Quad.C30_roots_misscaled
  Motive.Curve.C31_uniform_curvature
  Motive.Curve.C31_not_uniform_sound
  Motive.Curve.C31_tolerance_needed
  Motive.Curve.Dual.C32_mid_inside
  Motive.Curve.Dual.C32_curvature_partial
  Motive.Curve.Dual.C32_curvature_fails_when_clamped
  Motive.Curve.Dual.C32_assertion_fails
  Motive.Slot.OvershootSlot.C33_respects_limits
  Motive.Slot.OvershootSlot.C33_any_start
  Motive.Slot.OvershootSlot.C33_max_delta_partial
  Motive.Slot.OvershootSlot.C33_max_delta_fails
  Motive.Slot.OvershootSlot.C33_max_delta_per_frame_fails
  Motive.Slot.OvershootSlot.C33_fresh_outside
  Motive.Slot.OvershootSlot.C33_modular_range_without_zero_fails
  Motive.Slot.OvershootSlot.C34_steps
  Motive.Slot.OvershootSlot.C34_no_time
  Motive.Slot.OvershootSlot.C34_terminates
  Motive.Slot.OvershootSlot.C34_hangs_without_max_delta_time
  Motive.Slot.C34_processor_frame
  Motive.Slot.C34_processor_frame_modular
  Motive.Slot.removedSlot_hangs
  Motive.Slot.OvershootSlot.C35_stays
  Motive.Slot.OvershootSlot.C35_settles
  Motive.Slot.OvershootSlot.C35_within_thresholds_fails
  Motive.Slot.OvershootSlot.C35_modular_range_from_zero_fails
  Motive.Curve.C36_ease_partial
  Motive.Curve.C36_fly_out_partial
  Motive.Curve.C36_fly_in_partial
  Motive.Curve.C36_typical
  Motive.Curve.C36_settle_partial
  Motive.Curve.C36_usual_partial
  Motive.Curve.C36_any_input_partial
  Motive.Curve.C36_any_fly_in_partial
  Motive.Curve.C36_any_fly_out_partial
  Motive.Curve.C36_close_target_fails
  Motive.Curve.C36_close_target_fails_witness
  Motive.Curve.Spring.C37_shape
  Motive.Curve.Spring.C37_smooth
  Motive.Curve.Spring.C37_peaks
  Motive.Curve.Spring.C37_cut_off
  Motive.Curve.Spring.C37_starts
  Motive.Curve.Spring.C37_typical
  Motive.Slot.SpringSlot.C37_frames
  Motive.Slot.SpringSlot.C37_retarget
  Motive.Slot.SpringSlot.C37_settles
  Motive.Slot.SpringSlot.C37_bounded
  Motive.Slot.SpringSlot.C37_fresh
  Motive.Curve.Spring.C37_jump_on_target
  Motive.Curve.Spring.C37_rest_bias_one
  Motive.Curve.Spring.C37_iteration_x_bias_one
  Motive.Slot.SpringSlot.C37_untargeted_frame_fails
  Motive.Slot.C38_const_never_changes
  Motive.Slot.C38_reads_initial_values
  Motive.Slot.C38_at_target
  Motive.Proc.C39_refines_private_values
  Motive.Proc.C39_removed_slots_reset
  Motive.Proc.C39_frame_succeeds_iff
  Motive.Proc.C39_unused_slots_are_default
  Motive.SplineProc.C40_linear_ownership
  Motive.SplineProc.C40_plays_own
  Motive.SplineProc.C40_large_enough
  Motive.SplineProc.C40_failures
  Motive.SplineProc.C40_destroy
  Motive.SplineProc.C40_destroy_leaks
  Motive.SplineProc.C40_clone_untargeted_fails
  Motive.SplineProc.C40_target_after_clone_fails
  Motive.Targets.C41_plain
  Motive.Targets.C41_modular
  Motive.Targets.C41_spaced
  Motive.Targets.C41_positive_direction_fails
  Motive.Targets.C41_three_targets_fail
  Motive.Targets.C41_negative_time_fails
  Motive.Targets.C41_short_step_jumps
  Motive.Matrix4.C42_result_is_product
  Motive.Matrix4.C42_unsupported_fails
  Motive.Matrix4.C42_default_does_nothing
  Motive.Matrix4.C42_affine
  Motive.Matrix4.C43_merge
  Motive.Matrix4.C43_initialize
  Motive.Matrix4.C43_settles
  Motive.Matrix4.C43_no_jump
  Motive.Matrix4.C43_pose
  Motive.Matrix4.C43_type_change_ignored
  Motive.Matrix4.C43_quaternion_slips_in
  Motive.Matrix4.C44_align
  Motive.Matrix4.C44_neg_same_rotation
  Motive.Matrix4.C44_stays_in_hemisphere
  Motive.Matrix4.C44_needs_alignment
  Motive.Matrix4.C44_missing_component_not_aligned
  Motive.Matrix4.C44_velocity_leaves_hemisphere
  Motive.Rig.C45_globals
  Motive.Rig.C45_acts_on_points
  Motive.Rig.C45_out_of_order_fails
  Motive.Rig.C45_locals_affine
  Motive.Rig.C45_rig_single
  Motive.Rig.C45_rig_blended
  Motive.Rig.C46_weights_normalised
  Motive.Rig.C46_proportional
  Motive.Rig.C46_setWeights
  Motive.Rig.C46_average
  Motive.Rig.C46_identical
  Motive.Rig.C46_full_weight
  Motive.Rig.C46_average_between
  Motive.Rig.C46_unweighted_first_cancels
  Motive.Rig.C46_extra_weights
  Motive.Rig.C46_extra_weights_wrong_pose
  Motive.Table.C47_query
  Motive.Table.C47_success
  Motive.Table.C47_dimensions
  Motive.Table.C47_query_by_name
  Motive.Table.C47_loaded_once
  Motive.Table.C47_unique
  Motive.Table.C47_table_entries
  Motive.Table.C47_names_entries
  Motive.Table.C47_too_many
  Motive.Table.C48_defining
  Motive.Table.C48_gather
  Motive.Table.C48_constant_animated
  Motive.Table.C48_second_load
  Motive.Table.C48_too_many
  Motive.Util.C49_times
  Motive.Util.C49_search
  Motive.Util.C49_terminates
  Motive.Util.C49_derivatives
  Motive.Util.C49_three_positions
  Motive.Util.C49_turns_back
  Motive.Util.C50_array
  Motive.Util.C50_quaternion
  Motive.Util.C50_linear_nodes
  Motive.Util.C50_step_nodes
  Motive.Util.C50_cubic_nodes
  Motive.Util.C50_quaternion_signs
  Motive.Util.C50_quaternion_nodes
  Motive.Util.C50_component_order
  Motive.Util.C50_vector_constants
  Motive.Util.C50_vector_curves
  Motive.Util.C50_quaternion_constants
  Motive.Util.C50_quaternion_ops
  Motive.Util.C50_types
  Motive.Util.C50_too_many
  Motive.Util.C50_empty
  Motive.Pipeline.C51_add_curve
  Motive.Pipeline.C51_add_curve_single
  Motive.Pipeline.C51_add_curve_accuracy
  Motive.Pipeline.C51_prune_nodes
  Motive.Pipeline.C51_prune_sublist
  Motive.Pipeline.C51_prune_ends
  Motive.Pipeline.C51_prune_tolerance_fails
  Motive.Pipeline.C51_add_curve_truncates
  Motive.Pipeline.C52_sum
  Motive.Pipeline.C52_prune_channels
  Motive.Pipeline.C52_sum_of_unequal_spans_fails
  Motive.Pipeline.C52_scales_are_added
  Motive.Pipeline.C52_quaternion_component_dropped
  Motive.Math.FloatBits.C53_exponent_as_int
  Motive.Math.FloatBits.C53_exponent_from_int
  Motive.Math.FloatBits.C53_reciprocal
  Motive.Math.FloatBits.C53_sqrt_reciprocal
  Motive.Math.FloatBits.C53_max_power
  Motive.Math.FloatBits.C53_model_agrees
  Motive.Math.FloatBits.C53_sqrt_not_rounded_down
  Motive.Targets.Target.C54_times
  Motive.Targets.Target.C54_accepts
  Motive.Targets.Target.C54_negative_time_accepted
  Motive.Targets.Target.C54_value_range
  Motive.Targets.Target.C54_end_time
  Motive.Targets.Target.C54_const_velocity
  Motive.Targets.Target.C54_builders
  Motive.Math.Range.C55_index_of_longest
  Motive.Math.Range.C55_index_of_shortest
  Motive.Math.Range.C55_clamp_to_closest
  Motive.Math.Range.C55_covers
  Motive.Math.Angle.C56_vector_round_trip
  Motive.Math.Angle.C56_from_vector
  Motive.Math.Angle.C56_rotation
  Motive.Math.Angle.C56_lat_long
  Motive.Splines.Slot.C57_blend
  Motive.Splines.Slot.C57_start_derivative
  Motive.Splines.Slot.C57_end_derivative
  Motive.Splines.Slot.C57_modular
  Motive.Splines.Slot.C57_modular_not_shortest
  Motive.Splines.Slot.C58_set_x
  Motive.Splines.Slot.C58_clear_loses_value
  Motive.Slot.EaseSlot.C59_frames
  Motive.Slot.EaseSlot.C59_typical
  Motive.Slot.EaseSlot.C59_settles
  Motive.Slot.EaseSlot.C59_bias_one_runs_away
  Motive.Slot.EaseSlot.C59_velocity_after_arrival
  Motive.Slot.C60_difference_first_partial
  Motive.Slot.C60_difference_fails
  Motive.Slot.C61_initial_values
  Motive.Slot.C61_default_derivatives_fails
  Motive.Math.Range.C62_lengthen
  Motive.Math.Range.C62_lengthen_below_one_is_longer
  Motive.Splines.Evaluator.C63_set_splines
  Motive.Splines.Evaluator.C63_frame
  Motive.Splines.Evaluator.C63_frame_succeeds
  Motive.Matrix4.C64_parts
  Motive.Matrix4.C64_scale_before_rotation_not_rotation
  Motive.Matrix4.C65_sqt
  Motive.Matrix4.C65_pose
  Motive.Matrix4.C65_old_uniform_scale_wins
  Motive.Rig.C66_child
  Motive.Rig.C66_time_remaining
  Motive.Rig.C66_before_animation
  Motive.Rig.C66_repeating_overflows
  Motive.Matrix4.C66_matrix_time_remaining
  Motive.Rig.C67_blendToAnim
  Motive.Rig.C67_blendToAnims
  Motive.Rig.C67_succeeds
  Motive.Rig.C67_one_bone_fails
  Motive.Rig.C67_copies_too_late
  Motive.Pipeline.C68_min
  Motive.Pipeline.C68_max
  Motive.Pipeline.C68_times
  Motive.Pipeline.C68_constant
  Motive.Pipeline.C69_repeat
  Motive.Pipeline.C69_no_jump
  Motive.Pipeline.C69_too_many_bones
  Motive.Pipeline.C70_export
  Motive.Pipeline.C70_accurate
  Motive.Pipeline.C70_evaluate
  Motive.Pipeline.C70_too_many_nodes
  Motive.Pipeline.C71_round_trip
  Motive.Pipeline.C71_too_many_bones
  Motive.Pipeline.C71_roots
  Motive.Pipeline.C71_roots_fail
  Motive.Pipeline.C71_float_spline_fails
  Motive.Pipeline.C72_query
  Motive.Pipeline.C72_no_bone
  Motive.Pipeline.C72_imported
  Motive.Pipeline.C72_invalid_answers
  Motive.Matrix4.C73_clone
  Motive.Matrix4.C73_goes_on
  Motive.Matrix4.C73_independent
  Motive.Matrix4.C73_child_lost
  Motive.Pipeline.C74_bones
  Motive.Pipeline.C74_others
  Motive.Pipeline.C74_animation
  Motive.Pipeline.C75_transform
  Motive.Pipeline.C75_transform_exact
  Motive.Pipeline.C75_rotation_order
  Motive.Pipeline.C75_rotations_do_not_cancel
  Motive.Pipeline.C75_static
  Motive.Pipeline.C75_scene
  Motive.Pipeline.C76_curve
  Motive.Pipeline.C76_constant
  Motive.Pipeline.C76_last_slope_ignored
  Motive.Pipeline.C76_outside_fails
  Motive.Pipeline.C76_clipped
  Motive.Pipeline.C76_meets
  Motive.Pipeline.C77_prune_again
  Motive.Pipeline.C77_two_scales_change
  Motive.Engine.C78_one_time
  Motive.Engine.C78_succeeds
  Motive.Engine.C78_bones
  Motive.Engine.C78_bones_both
  Motive.Engine.C78_order_matters
  Motive.Owner.C79_parts_by_value
  Motive.Owner.C79_never_fails
  Motive.Owner.C79_one_owner
  Motive.Owner.C79_nothing_left
  Motive.Owner.C79_invalidate_children
  Motive.Owner.C79_others_untouched
  Motive.Owner.C79_standing_untouched
  Motive.Owner.C79_defragment
  Motive.Owner.C80_growth_by_copy
  Motive.Owner.C80_lost_child
  Motive.Owner.C80_fails_for_springs
  Motive.Float.Angle.C81_add_sub
  Motive.Float.Angle.C81_laws
  Motive.Float.Angle.C81_constants
  Motive.Float.Angle.C81_sub_zero
  Motive.Float.Angle.C81_not_associative
  Motive.Float.Angle.C82_from_radians
  Motive.Float.Angle.C82_from_degrees
  Motive.Float.Angle.C82_scale
  Motive.Float.Angle.C82_clamp
  Motive.Float.Angle.C82_small_angle_lost
  Motive.Float.Angle.C82_large_fails
  Motive.Float.Angle.C82_clamp_changes
  Motive.Float.Range.C83_normalize
  Motive.Float.Range.C83_wild
  Motive.Float.Range.C83_close
  Motive.Float.Range.C83_differences
  Motive.Float.Range.C83_lerp_ends
  Motive.Float.Range.C83_asymmetric_fails
  Motive.Float.Range.C83_positive_reaches_length
  Motive.Float.Quantize.C84_x
  Motive.Float.Quantize.C84_x_monotone
  Motive.Float.Quantize.C84_y
  Motive.Float.Quantize.C84_y_ends
  Motive.Float.Quantize.C84_y_monotone
  Motive.Float.Quantize.C84_y_order_lost
  Motive.Float.Time.C85_exact
  Motive.Float.Time.C85_division_of_time
  Motive.Float.Time.C85_forwards
  Motive.Float.Time.C85_drift
  Motive.Float.Time.C85_stops
  Motive.Float.Time.C85_stops_after_hours
  Motive.Spline.TwoSteps.C86_one_step
  Motive.Spline.TwoSteps.C86_two_steps_partial
  Motive.Spline.TwoSteps.C86_many_splines
  Motive.Spline.TwoSteps.C86_two_steps_miss
  Motive.Spline.TwoSteps.C86_single_spline
  Motive.Pipeline.CommandLine.C87_accepts
  Motive.Pipeline.CommandLine.C87_rejects_partial
  Motive.Pipeline.CommandLine.C87_errors_forgiven
  Motive.Pipeline.CommandLine.C87_any_order
  Motive.Rig.Storage.C88_rig_objects
  Motive.Rig.Storage.C88_no_leak
  Motive.Rig.Storage.C88_initialize
  Motive.Rig.Storage.C88_kept
  Motive.Rig.Storage.C88_advance
  Motive.Rig.Storage.C88_deleted
  Motive.Proc.Vector.C89_dimensions_are_motivators
  Motive.Proc.Vector.C89_reads
  Motive.Proc.Vector.C89_target_time
  Motive.Proc.Vector.C89_same_failures
  Motive.Proc.Vector.C89_extra_dimension_overwrites
  Motive.Proc.Vector.C90_life
  Motive.Proc.Vector.C90_same_life
  Motive.Proc.Vector.C90_safety
  Motive.Proc.Vector.C90_overshoot_limits
  Motive.Proc.Vector.C90_springs_arrive
  Motive.Proc.Vector.C90_eases_arrive
  Motive.SplineProc.C91_motivators_play
  Motive.SplineProc.C91_repeating_after_end
  Motive.SplineProc.C91_cleared_slots_run
  Motive.SplineProc.C91_untargeted_frame_fails
  Motive.Float.Overshoot.C92_limits
  Motive.Float.Overshoot.C92_programs
  Motive.Float.Overshoot.C92_stays
  Motive.Float.Overshoot.C92_settles
  Motive.Float.Overshoot.C92_longest_step_fails
  Motive.Float.Overshoot.C92_slow_motion_stalls
  Motive.Pipeline.Output.C93_status
  Motive.Pipeline.Output.C93_failure
  Motive.Pipeline.Output.C93_success
  Motive.Pipeline.Output.C93_reads_back
  Motive.Pipeline.Output.C93_stopped
  Motive.Pipeline.Output.C93_write_errors_ignored
  Motive.Pipeline.Output.C93_not_atomic
  Motive.Pipeline.Defining.C94_round_trip
  Motive.Pipeline.Defining.C94_refuses
  Motive.Pipeline.Defining.C94_constants_lost
  Motive.Pipeline.Defining.C94_quaternions_fail
  Motive.Pipeline.Defining.C94_unsaved
  Motive.Matrix4.C95_stage
  Motive.Matrix4.C95_initialize
  Motive.Matrix4.C95_program
  Motive.Matrix4.C95_no_jump
  Motive.Matrix4.C95_align
  Motive.Matrix4.C95_align_stops
  Motive.Matrix4.C95_sqt
  Motive.SplineProc.C96_plays
  Motive.SplineProc.C96_motivators_play
  Motive.SplineProc.C96_long_stride_fails
  Motive.Matrix4.C97_program
  Motive.Matrix4.C97_initialize
  Motive.Matrix4.C97_no_jump
  Motive.Matrix4.C97_sqt
  Motive.Rig.C98_rig
  Motive.Rig.C98_runs
  Motive.Rig.C98_kinds_do_not_mix
  Motive.Float.Hermite.C99_value
  Motive.Float.Hermite.C99_slope
  Motive.Float.Hermite.C99_higher
  Motive.Float.Hermite.C99_start
  Motive.Float.Hermite.C99_flat
  Motive.Float.Hermite.C99_shift
  Motive.Float.Hermite.C99_end_inexact
  Motive.Float.Hermite.C99_spline_between
  Motive.Float.Hermite.C99_spline_node
  Motive.Float.Hermite.C99_spline_outside
  Motive.Float.Hermite.C99_spline_end
  Motive.Float.Hermite.C99_second_node_inexact
