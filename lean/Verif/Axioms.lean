import Verif.Data.PropsData
import Verif.Data.PropsFile
import Verif.Disp.PropsCausal
import Verif.Disp.PropsGauss
import Verif.Disp.PropsIdentify
import Verif.Disp.PropsKK
import Verif.Disp.PropsKKBetween
import Verif.Disp.PropsMaterials
import Verif.Disp.PropsOrder
import Verif.Disp.PropsOsc
import Verif.Disp.PropsRIFile
import Verif.Disp.PropsRoundGauss
import Verif.Disp.PropsRoundIndex
import Verif.Disp.PropsSampled
import Verif.Disp.PropsStatic
import Verif.Disp.PropsSum
import Verif.Disp.PropsTable
import Verif.Disp.PropsTransparent
import Verif.Disp.PropsUser
import Verif.EMA.PropsContinuity
import Verif.EMA.PropsEMA
import Verif.EMA.PropsFactor
import Verif.EMA.PropsFraction
import Verif.EMA.PropsRules
import Verif.Obj.PropsArgs
import Verif.Obj.PropsBest
import Verif.Obj.PropsBounded
import Verif.Obj.PropsConsistent
import Verif.Obj.PropsCovar
import Verif.Obj.PropsDetermined
import Verif.Obj.PropsErrorBars
import Verif.Obj.PropsExact
import Verif.Obj.PropsFold
import Verif.Obj.PropsHist
import Verif.Obj.PropsLabelled
import Verif.Obj.PropsLik
import Verif.Obj.PropsLocal
import Verif.Obj.PropsMisfit
import Verif.Obj.PropsNaN
import Verif.Obj.PropsNoise
import Verif.Obj.PropsPeak
import Verif.Obj.PropsPerfect
import Verif.Obj.PropsPlot
import Verif.Obj.PropsPoints
import Verif.Obj.PropsPrint
import Verif.Obj.PropsProbable
import Verif.Obj.PropsProper
import Verif.Obj.PropsProperPrior
import Verif.Obj.PropsRandom
import Verif.Obj.PropsRecover
import Verif.Obj.PropsRecoverAbsorb
import Verif.Obj.PropsRecoverLorentz
import Verif.Obj.PropsRecoverResonance
import Verif.Obj.PropsRecoverSellmeier
import Verif.Obj.PropsRecoverSubstrate
import Verif.Obj.PropsResid
import Verif.Obj.PropsRoundFit
import Verif.Obj.PropsSensitivity
import Verif.Obj.PropsSim
import Verif.Obj.PropsSmallErrors
import Verif.Obj.PropsState
import Verif.Obj.PropsSubstrate
import Verif.Obj.PropsSubstrateNoise
import Verif.Obj.PropsWeights
import Verif.Params.PropsCall
import Verif.Params.PropsParams
import Verif.Params.PropsRoles
import Verif.Parse.PropsEP4
import Verif.Parse.PropsEP4Names
import Verif.Parse.PropsFilmSense
import Verif.Parse.PropsHandles
import Verif.Parse.PropsHoriba
import Verif.Parse.PropsM2000
import Verif.RModel.PropsAlike
import Verif.RModel.PropsEndToEnd
import Verif.RModel.PropsModel
import Verif.RModel.PropsReverse
import Verif.RModel.PropsThreads
import Verif.Repr.PropsRepr
import Verif.Struct.PropsBuild
import Verif.Struct.PropsList
import Verif.Struct.PropsNan
import Verif.Struct.PropsProfile
import Verif.Struct.PropsSlabs
import Verif.TMM.PropsAbsorb
import Verif.TMM.PropsArray
import Verif.TMM.PropsBare
import Verif.TMM.PropsBloch
import Verif.TMM.PropsClip
import Verif.TMM.PropsCoating
import Verif.TMM.PropsCont
import Verif.TMM.PropsContClip
import Verif.TMM.PropsDrude
import Verif.TMM.PropsEnergy
import Verif.TMM.PropsGraded
import Verif.TMM.PropsGradedMid
import Verif.TMM.PropsLayered
import Verif.TMM.PropsLayeredOblique
import Verif.TMM.PropsMaxwell
import Verif.TMM.PropsObs
import Verif.TMM.PropsRange
import Verif.TMM.PropsRoundStack
import Verif.TMM.PropsRounded
import Verif.TMM.PropsSampledObs
import Verif.TMM.PropsScreen
import Verif.TMM.PropsSides
import Verif.TMM.PropsSign
import Verif.TMM.PropsSmooth
import Verif.TMM.PropsStack
import Verif.TMM.PropsSym
import Verif.TMM.PropsThick
import Verif.TMM.PropsThickness
import Verif.TMM.PropsThicknessMany
import Verif.TMM.PropsTotal

/-! Axioms used by every property theorem (printed during the build). -/

#print axioms Verif.TMM.C01_coh_tmm_maxwell
#print axioms Verif.TMM.C02_coh_tmm_fresnel
#print axioms Verif.TMM.C03_coh_tmm_airy
#print axioms Verif.TMM.C04_zero_thickness
#print axioms Verif.TMM.C04_zero_thickness_physical
#print axioms Verif.TMM.C04_psi_delta
#print axioms Verif.TMM.C05_split_partial
#print axioms Verif.TMM.C05_psi_delta_partial
#print axioms Verif.TMM.C05_clip_breaks_split
#print axioms Verif.TMM.C06_match_backing
#print axioms Verif.TMM.C06_psi_delta
#print axioms Verif.TMM.C07_match_fronting
#print axioms Verif.TMM.C07_psi_delta
#print axioms Verif.TMM.C08_coh_tmm_passive
#print axioms Verif.TMM.C09_coh_tmm_lossless
#print axioms Verif.TMM.C10_coh_tmm_finite
#print axioms Verif.TMM.C11_snell
#print axioms Verif.TMM.C11_direction_irrelevant
#print axioms Verif.TMM.C12_outgoing_partial
#print axioms Verif.TMM.C12_growing_wave
#print axioms Verif.TMM.C12_growing_wave_witness
#print axioms Verif.TMM.C13_fails_clip
#print axioms Verif.TMM.C13_angle_sign_partial
#print axioms Verif.TMM.C13_fails_total_reflection
#print axioms Verif.TMM.C14_encode_ratio
#print axioms Verif.TMM.C14_finite_iff
#print axioms Verif.TMM.C14_psi
#print axioms Verif.TMM.C15_reflect
#print axioms Verif.RModel.C16_model
#print axioms Verif.TMM.C16_offset
#print axioms Verif.TMM.C17_ignored
#print axioms Verif.TMM.C18_scale
#print axioms Verif.RModel.C19_model
#print axioms Verif.RModel.C19_rearranged
#print axioms Verif.TMM.C19_coh_tmm_pointwise
#print axioms Verif.TMM.C19_delta_psi_pointwise
#print axioms Verif.RModel.C20_history
#print axioms Verif.RModel.C20_after
#print axioms Verif.RModel.C21_float_partial
#print axioms Verif.RModel.C21_integer_truncates
#print axioms Verif.RModel.C21_fails_integer
#print axioms Verif.TMM.C22_clip_confined
#print axioms Verif.TMM.C23_input_usable
#print axioms Verif.EMA.C24_dry_partial
#print axioms Verif.EMA.C24_fails_bruggeman
#print axioms Verif.EMA.C25_wet_partial
#print axioms Verif.EMA.C25_fails_bruggeman
#print axioms Verif.EMA.C26_self_partial
#print axioms Verif.EMA.C26_fails_bruggeman
#print axioms Verif.EMA.C27_symmetric
#print axioms Verif.EMA.C27_garnett_not_symmetric
#print axioms Verif.EMA.C28_bruggeman_equation
#print axioms Verif.EMA.C29_between
#print axioms Verif.EMA.C29_monotone
#print axioms Verif.EMA.C30_passive_partial
#print axioms Verif.EMA.C30_fails_bruggeman
#print axioms Verif.EMA.C31_garnett_zero
#print axioms Verif.EMA.C31_bruggeman_zero_partial
#print axioms Verif.EMA.C31_fails_bruggeman_zero
#print axioms Verif.EMA.C31_garnett_one
#print axioms Verif.EMA.C32_usable_partial
#print axioms Verif.EMA.C32_fails_bruggeman_one
#print axioms Verif.EMA.C32_unknown_rule
#print axioms Verif.Struct.C33_setter
#print axioms Verif.Struct.C33_invariant_partial
#print axioms Verif.Struct.C33_fails_constructor
#print axioms Verif.Struct.C34_concat
#print axioms Verif.Struct.C34_assoc
#print axioms Verif.Struct.C34_foreign
#print axioms Verif.Struct.C34_append
#print axioms Verif.Struct.C35_inplace_partial
#print axioms Verif.Struct.C35_fails_or
#print axioms Verif.Struct.C35_fails_example
#print axioms Verif.Struct.C36_copy_partial
#print axioms Verif.Struct.C36_fails_reversed
#print axioms Verif.Struct.C37_repeat
#print axioms Verif.Struct.C38_only_components
#print axioms Verif.Struct.C38_rejects
#print axioms Verif.Struct.C38_constructor
#print axioms Verif.Struct.C38_solvent
#print axioms Verif.Struct.C39_empty
#print axioms Verif.Struct.C39_ends
#print axioms Verif.Struct.C39_rows
#print axioms Verif.Struct.C39_interface
#print axioms Verif.Struct.C40_columns
#print axioms Verif.Struct.C40_index
#print axioms Verif.Struct.C41_interior_only
#print axioms Verif.Struct.C41_interior_either
#print axioms Verif.Struct.C42_backing_partial
#print axioms Verif.Struct.C42_fails_nondispersive
#print axioms Verif.Struct.C43_dry_partial
#print axioms Verif.Struct.C43_fails_bruggeman
#print axioms Verif.Struct.C44_keyword
#print axioms Verif.Struct.C44_no_keyword
#print axioms Verif.Struct.C44_only_at_wavelength
#print axioms Verif.Struct.C44_effective
#print axioms Verif.Struct.C44_index
#print axioms Verif.Struct.C45_align
#print axioms Verif.Struct.C45_negative
#print axioms Verif.Struct.C45_range_partial
#print axioms Verif.Struct.C45_fails_range
#print axioms Verif.Struct.C45_needs_two
#print axioms Verif.Disp.C46_interpolates
#print axioms Verif.Disp.C46_clamps
#print axioms Verif.Disp.C46_at_entries
#print axioms Verif.Disp.C46_between
#print axioms Verif.Disp.C47_single_use_partial
#print axioms Verif.Disp.C47_fails_mutates
#print axioms Verif.Disp.C47_fails_second
#print axioms Verif.Disp.C47_fails_lists
#print axioms Verif.Disp.C48_involution
#print axioms Verif.Disp.C48_decreasing
#print axioms Verif.Disp.C48_physical
#print axioms Verif.Disp.C48_zero
#print axioms Verif.Disp.C49_cauchy
#print axioms Verif.Disp.C49_decreasing
#print axioms Verif.Disp.C50_square
#print axioms Verif.Disp.C50_decreasing
#print axioms Verif.Disp.C50_rises_across_resonance
#print axioms Verif.Disp.C51_passive
#print axioms Verif.Disp.C51_index_passive
#print axioms Verif.Disp.C51_permute
#print axioms Verif.Disp.C51_additive
#print axioms Verif.Disp.C51_finite
#print axioms Verif.Disp.C52_edge
#print axioms Verif.Disp.C52_finite
#print axioms Verif.Disp.C52_epsilon
#print axioms Verif.Disp.C53_finite_partial
#print axioms Verif.Disp.C53_fails_broad
#print axioms Verif.Disp.C53_fails_gap
#print axioms Verif.Disp.C54_absorbs
#print axioms Verif.Disp.C54_additive
#print axioms Verif.Disp.C54_finite
#print axioms Verif.Disp.C54_mean
#print axioms Verif.Disp.C55_principal_root
#print axioms Verif.Disp.C56_lengths
#print axioms Verif.Disp.C57_load
#print axioms Verif.Disp.C57_physical
#print axioms Verif.Disp.C57_increasing_partial
#print axioms Verif.Disp.C57_fails_increasing
#print axioms Verif.Disp.C58_elementwise_partial
#print axioms Verif.Disp.C58_fails_const
#print axioms Verif.Data.C59_mask_partial
#print axioms Verif.Data.C59_wrong_length
#print axioms Verif.Data.C59_fails_none
#print axioms Verif.Data.C60_setter
#print axioms Verif.Data.C61_reflect_partial
#print axioms Verif.Data.C61_idempotent
#print axioms Verif.Data.C61_fails_single
#print axioms Verif.Data.C62_unchanged_partial
#print axioms Verif.Data.C62_fails_reflect
#print axioms Verif.Data.C62_fails_dataset
#print axioms Verif.Data.C63_copy_partial
#print axioms Verif.Data.C63_fails_mask
#print axioms Verif.Data.C63_fails_convention
#print axioms Verif.Data.C64_round_trip_partial
#print axioms Verif.Data.C64_fails_delimiter
#print axioms Verif.Data.C65_truncated
#print axioms Verif.Data.C66_header
#print axioms Verif.Data.C66_too_long
#print axioms Verif.Data.C67_handle_partial
#print axioms Verif.Data.C67_fails_handle
#print axioms Verif.Data.C67_fails_refresh
#print axioms Verif.Parse.C67_fails_m2000
#print axioms Verif.Parse.C67_fails_m2000_first
#print axioms Verif.Parse.C67_fails_m2000_kinetic
#print axioms Verif.Data.C68_unique_partial
#print axioms Verif.Obj.Labelled.C68_fails_series
#print axioms Verif.Parse.C69_areas
#print axioms Verif.Parse.C69_single
#print axioms Verif.Parse.C69_position
#print axioms Verif.Parse.C70_series_partial
#print axioms Verif.Parse.C70_fails_places
#print axioms Verif.Parse.C70_fails_jitter
#print axioms Verif.Parse.C70_fails_mapping
#print axioms Verif.Parse.C71_averages
#print axioms Verif.Parse.C71_order
#print axioms Verif.Parse.C71_code
#print axioms Verif.Parse.C71_open
#print axioms Verif.Parse.C72_circle_partial
#print axioms Verif.Parse.C72_fails_wrap
#print axioms Verif.Parse.C73_custom_round
#print axioms Verif.Parse.C73_exact
#print axioms Verif.Parse.C74_blocks
#print axioms Verif.Parse.C74_only
#print axioms Verif.Parse.C75_cutoffs
#print axioms Verif.Parse.C75_file
#print axioms Verif.Parse.C76_static
#print axioms Verif.Parse.C76_empty
#print axioms Verif.Parse.C76_open
#print axioms Verif.Parse.C76_mode
#print axioms Verif.Parse.C77_kinetic_partial
#print axioms Verif.Parse.C77_fails_close_times
#print axioms Verif.Parse.C77_open
#print axioms Verif.Parse.C78_inverse
#print axioms Verif.Parse.C78_range
#print axioms Verif.Parse.C79_static
#print axioms Verif.Parse.C79_dynamic_partial
#print axioms Verif.Parse.C79_last
#print axioms Verif.Parse.C79_fails_equal_times
#print axioms Verif.Parse.C79_unknown
#print axioms Verif.Obj.C80_abs_partial
#print axioms Verif.Obj.C80_partial
#print axioms Verif.Obj.C80_fails
#print axioms Verif.Obj.C81_residuals
#print axioms Verif.Obj.C81_zero_partial
#print axioms Verif.Obj.C81_fails
#print axioms Verif.Obj.C82_sum
#print axioms Verif.Obj.C82_nonneg
#print axioms Verif.Obj.C82_equiv_partial
#print axioms Verif.Obj.C82_fails
#print axioms Verif.Obj.C83_formula
#print axioms Verif.Obj.C83_vector
#print axioms Verif.Obj.C83_chisqr
#print axioms Verif.Obj.C83_not_finite
#print axioms Verif.Obj.C84_fails
#print axioms Verif.Obj.C84_partial
#print axioms Verif.Obj.C85_fails
#print axioms Verif.Obj.C85_iff_partial
#print axioms Verif.Obj.C85_fails_example
#print axioms Verif.Obj.C86_none
#print axioms Verif.Obj.C86_varying
#print axioms Verif.Obj.C86_all_partial
#print axioms Verif.Obj.C86_places
#print axioms Verif.Obj.C86_places_unweighted
#print axioms Verif.Obj.C86_wrong_length
#print axioms Verif.Obj.C86_fails
#print axioms Verif.Obj.C87_outside
#print axioms Verif.Obj.C87_inside
#print axioms Verif.Obj.C87_iff
#print axioms Verif.Obj.C88_covar
#print axioms Verif.Obj.C89_fails
#print axioms Verif.Obj.C89_partial
#print axioms Verif.Obj.C90_function
#print axioms Verif.Obj.C90_history
#print axioms Verif.Obj.C90_full_vector
#print axioms Verif.Obj.C91_iff
#print axioms Verif.Obj.C91_partial
#print axioms Verif.Obj.C91_fails
#print axioms Verif.Obj.C92_varying
#print axioms Verif.Obj.C92_which
#print axioms Verif.Obj.C92_transform
#print axioms Verif.Obj.C92_short
#print axioms Verif.Obj.C92_setp
#print axioms Verif.TMM.C93_reciprocity
#print axioms Verif.TMM.C93_transmittance
#print axioms Verif.RModel.C94_plot_partial
#print axioms Verif.RModel.C94_fails_reverse
#print axioms Verif.RModel.C94_fails_reverse_example
#print axioms Verif.RModel.C94_fails_error
#print axioms Verif.Disp.C95_name_partial
#print axioms Verif.Disp.C95_fails_default
#print axioms Verif.Disp.C96_gauss
#print axioms Verif.Disp.C96_lorentz
#print axioms Verif.Disp.C97_transparent_partial
#print axioms Verif.Disp.C97_fails_aluminium_oxide
#print axioms Verif.Data.C98_new_partial
#print axioms Verif.Data.C98_fails_setter
#print axioms Verif.Data.C98_fails_refresh
#print axioms Verif.Parse.C99_header
#print axioms Verif.Parse.C99_refuses
#print axioms Verif.Obj.C100_inverse
#print axioms Verif.Obj.C100_covar
#print axioms Verif.Obj.C101_no_effect_partial
#print axioms Verif.Obj.C101_only
#print axioms Verif.Obj.C101_fails_correlated
#print axioms Verif.Obj.C102_partial
#print axioms Verif.Obj.C102_fails
#print axioms Verif.Obj.C102_fails_equal
#print axioms Verif.Params.C103_slabs_partial
#print axioms Verif.Params.C103_model_partial
#print axioms Verif.Params.C103_fails_ri
#print axioms Verif.Params.C103_fails_thick
#print axioms Verif.Params.C104_wrong_length
#print axioms Verif.Params.C104_sets
#print axioms Verif.Params.C104_function
#print axioms Verif.Params.C105_plot_partial
#print axioms Verif.Params.C105_curves_partial
#print axioms Verif.Params.C105_pvals
#print axioms Verif.Params.C105_fails
#print axioms Verif.Disp.C106_lorentz
#print axioms Verif.Disp.C106_tauc_lorentz
#print axioms Verif.Disp.C106_tauc_lorentz_unique
#print axioms Verif.Disp.C106_lorentz_unique
#print axioms Verif.Obj.C107_wavelength
#print axioms Verif.Obj.C107_aoi
#print axioms Verif.Obj.C107_empty
#print axioms Verif.Obj.C107_fitted_partial
#print axioms Verif.Obj.C107_fails_integer
#print axioms Verif.Obj.C108_aoi
#print axioms Verif.Obj.C108_aoi_succeeds
#print axioms Verif.Obj.C108_wavelength_partial
#print axioms Verif.Obj.C108_fails_angles
#print axioms Verif.Parse.C109_text
#print axioms Verif.Parse.C109_fails_short
#print axioms Verif.Parse.C109_name
#print axioms Verif.Parse.C109_series
#print axioms Verif.Parse.C109_map_partial
#print axioms Verif.Parse.C109_fails_return
#print axioms Verif.RModel.C110_curves
#print axioms Verif.TMM.C111_normal
#print axioms Verif.TMM.C112_invert
#print axioms Verif.TMM.C112_unique
#print axioms Verif.TMM.C113_psi_le
#print axioms Verif.TMM.C113_brewster
#print axioms Verif.TMM.C114_amplitudes
#print axioms Verif.TMM.C114_psi_delta
#print axioms Verif.TMM.C115_amplitudes
#print axioms Verif.TMM.C115_psi_delta
#print axioms Verif.TMM.C116_amplitudes_partial
#print axioms Verif.TMM.C116_psi_delta_partial
#print axioms Verif.TMM.C116_fails_total_reflection
#print axioms Verif.TMM.C116_fails_clip
#print axioms Verif.RModel.C117_slabs
#print axioms Verif.RModel.C117_model
#print axioms Verif.Obj.C118_fails
#print axioms Verif.Obj.C118_identity_partial
#print axioms Verif.Obj.C118_fails_example
#print axioms Verif.Obj.C119_arrays
#print axioms Verif.Obj.C119_file
#print axioms Verif.Obj.C119_fails_other
#print axioms Verif.Obj.C119_subclass_partial
#print axioms Verif.Obj.C119_fails_subclass
#print axioms Verif.Obj.C120_same
#print axioms Verif.Obj.C120_order
#print axioms Verif.Obj.C120_together
#print axioms Verif.Obj.C121_chisqr_partial
#print axioms Verif.Obj.C121_residuals_partial
#print axioms Verif.Obj.C121_fails
#print axioms Verif.EMA.C122_unique_partial
#print axioms Verif.EMA.C122_fails
#print axioms Verif.EMA.C122_fails_docstring
#print axioms Verif.TMM.C123_refines
#print axioms Verif.TMM.C123_alone
#print axioms Verif.TMM.C123_maxwell
#print axioms Verif.TMM.C123_shapes
#print axioms Verif.TMM.C123_delta_psi
#print axioms Verif.Params.C124_cauchy
#print axioms Verif.Params.C124_sellmeier
#print axioms Verif.Params.C124_lorentz
#print axioms Verif.Params.C124_tauc
#print axioms Verif.Params.C124_gauss
#print axioms Verif.Params.C124_model
#print axioms Verif.Obj.C125_fails
#print axioms Verif.Obj.C125_fails_other
#print axioms Verif.Obj.C125_no_weights
#print axioms Verif.Obj.C125_partial
#print axioms Verif.Obj.C125_no_lnsigma
#print axioms Verif.TMM.C126_reflectance
#print axioms Verif.TMM.C126_psi
#print axioms Verif.Data.C127_load_partial
#print axioms Verif.Data.C127_fails_length
#print axioms Verif.Data.C127_fails_mask
#print axioms Verif.Data.C127_fails_refresh
#print axioms Verif.Struct.C128_mix_partial
#print axioms Verif.Struct.C128_fails_bruggeman
#print axioms Verif.Struct.C128_fails_garnett
#print axioms Verif.Struct.C128_fails_layer
#print axioms Verif.Disp.C129_gauss_knots
#print axioms Verif.Disp.C129_gauss_static
#print axioms Verif.Disp.C129_gauss_high
#print axioms Verif.Disp.C129_lorentz
#print axioms Verif.Parse.C130_block_partial
#print axioms Verif.Parse.C130_fails_heading
#print axioms Verif.TMM.C131_two_candidates
#print axioms Verif.TMM.C131_four_candidates
#print axioms Verif.TMM.C131_folded_alias
#print axioms Verif.TMM.C131_matched_film
#print axioms Verif.RModel.C132_slabs
#print axioms Verif.RModel.C132_model
#print axioms Verif.Disp.C133_file_partial
#print axioms Verif.Disp.C133_fails_one_row
#print axioms Verif.Disp.C133_fails_columns
#print axioms Verif.Disp.C133_fails_headless
#print axioms Verif.Disp.C133_forms
#print axioms Verif.Obj.C134_determined
#print axioms Verif.Obj.C134_fails_exact
#print axioms Verif.Obj.C134_sensitivity_partial
#print axioms Verif.Obj.C135_arrays_partial
#print axioms Verif.Obj.C135_file_partial
#print axioms Verif.Obj.C135_fails_convention
#print axioms Verif.Obj.C135_fails_offset
#print axioms Verif.TMM.C136_amplitudes
#print axioms Verif.TMM.C136_substrate
#print axioms Verif.TMM.C136_psi_delta
#print axioms Verif.Disp.C137_close_partial
#print axioms Verif.Disp.C137_fails
#print axioms Verif.Disp.C137_fails_far
#print axioms Verif.Disp.C137_between_partial
#print axioms Verif.TMM.C138_amplitudes
#print axioms Verif.TMM.C138_psi_delta
#print axioms Verif.TMM.C139_slope
#print axioms Verif.TMM.C139_visible
#print axioms Verif.TMM.C139_transparent
#print axioms Verif.TMM.C139_confounded
#print axioms Verif.Disp.C140_cauchy
#print axioms Verif.Disp.C140_sellmeier
#print axioms Verif.Obj.C141_residuals_partial
#print axioms Verif.Obj.C141_fails_offset
#print axioms Verif.TMM.C142_bound
#print axioms Verif.TMM.C142_range_partial
#print axioms Verif.TMM.C142_fails_gap
#print axioms Verif.TMM.C142_fails_films
#print axioms Verif.EMA.C143_fraction_partial
#print axioms Verif.EMA.C143_distinct_partial
#print axioms Verif.EMA.C143_fails
#print axioms Verif.EMA.C144_continuous_partial
#print axioms Verif.EMA.C144_fails
#print axioms Verif.TMM.C145_psi
#print axioms Verif.TMM.C145_phase_partial
#print axioms Verif.TMM.C145_fails_phase
#print axioms Verif.Obj.C146_residuals_partial
#print axioms Verif.Obj.C146_chisqr_partial
#print axioms Verif.Obj.C146_logl_partial
#print axioms Verif.Obj.C146_fails
#print axioms Verif.Repr.C147_slab
#print axioms Verif.Repr.C147_mixed
#print axioms Verif.Repr.C147_complete_partial
#print axioms Verif.Repr.C147_fails_model
#print axioms Verif.Repr.C147_fails_objective
#print axioms Verif.Repr.C147_fails_class
#print axioms Verif.TMM.C148_psi_delta_partial
#print axioms Verif.TMM.C148_fails_critical
#print axioms Verif.Obj.C149_chisqr_partial
#print axioms Verif.Obj.C149_fails_critical
#print axioms Verif.Struct.C150_edits_partial
#print axioms Verif.Struct.C150_refused
#print axioms Verif.Struct.C150_fails_scatterer
#print axioms Verif.Struct.C150_fails_slice
#print axioms Verif.Struct.C150_new_partial
#print axioms Verif.RModel.C151_alone_partial
#print axioms Verif.RModel.C151_one_wavelength_partial
#print axioms Verif.RModel.C151_flat_partial
#print axioms Verif.RModel.C151_fails_race
#print axioms Verif.Disp.C152_increasing_partial
#print axioms Verif.Disp.C152_bundled
#print axioms Verif.Disp.C152_fails_decreasing
#print axioms Verif.Disp.C153_gauss
#print axioms Verif.Disp.C153_index_partial
#print axioms Verif.Disp.C153_bundled_partial
#print axioms Verif.Disp.C153_fails_jump
#print axioms Verif.Disp.C153_fails_metal
#print axioms Verif.TMM.C153_psi_delta_partial
#print axioms Verif.EMA.C154_factor_partial
#print axioms Verif.EMA.C154_order
#print axioms Verif.EMA.C154_fails_one
#print axioms Verif.EMA.C154_fails_linear
#print axioms Verif.TMM.C155_amplitudes_partial
#print axioms Verif.TMM.C155_psi_delta_partial
#print axioms Verif.TMM.C155_equal
#print axioms Verif.TMM.C155_slices
#print axioms Verif.TMM.C155_rate_partial
#print axioms Verif.TMM.C155_fails_critical
#print axioms Verif.TMM.C156_amplitudes_partial
#print axioms Verif.TMM.C156_psi_delta_partial
#print axioms Verif.TMM.C156_indices
#print axioms Verif.TMM.C156_linear_partial
#print axioms Verif.TMM.C156_fails_oblique
#print axioms Verif.TMM.C157_amplitudes
#print axioms Verif.TMM.C157_psi_delta
#print axioms Verif.TMM.C157_psi_delta_rate
#print axioms Verif.TMM.C157_absorbing
#print axioms Verif.TMM.C157_mirror
#print axioms Verif.TMM.C157_psi
#print axioms Verif.TMM.C157_pass
#print axioms Verif.TMM.C157_two_layers
#print axioms Verif.TMM.C157_stop_band
#print axioms Verif.TMM.C157_quarter
#print axioms Verif.Disp.C158_error
#print axioms Verif.Disp.C158_spacing
#print axioms Verif.Disp.C158_sharp
#print axioms Verif.Disp.C158_cauchy
#print axioms Verif.Disp.C158_converges
#print axioms Verif.TMM.C158_psi_delta
#print axioms Verif.Disp.C159_f_sum
#print axioms Verif.Disp.C159_static
#print axioms Verif.Disp.C159_mean
#print axioms Verif.Disp.C159_high
#print axioms Verif.Disp.C159_free
#print axioms Verif.Disp.C160_user
#print axioms Verif.Disp.C160_default
#print axioms Verif.Disp.C160_own
#print axioms Verif.Disp.C160_oscillators_partial
#print axioms Verif.Disp.C160_sellmeier_wavelength
#print axioms Verif.Disp.C160_fails_sellmeier
#print axioms Verif.RModel.C161_model
#print axioms Verif.RModel.C161_user
#print axioms Verif.RModel.C161_constant
#print axioms Verif.TMM.C162_amplitudes
#print axioms Verif.TMM.C162_psi_delta
#print axioms Verif.TMM.C163_finitely_many
#print axioms Verif.TMM.C163_incommensurate
#print axioms Verif.TMM.C163_commensurate
#print axioms Verif.TMM.C163_wavelengths
#print axioms Verif.TMM.C164_amplitude
#print axioms Verif.TMM.C164_normal
#print axioms Verif.TMM.C164_oblique
#print axioms Verif.Obj.C165_text
#print axioms Verif.Obj.C165_raises
#print axioms Verif.Obj.C165_state
#print axioms Verif.Obj.C165_no_effect
#print axioms Verif.Obj.C165_counts_partial
#print axioms Verif.Obj.C165_fails
#print axioms Verif.Obj.C166_finitely_many
#print axioms Verif.Obj.C166_incommensurate
#print axioms Verif.Obj.C166_periodic
#print axioms Verif.Obj.C167_best_partial
#print axioms Verif.Obj.C167_near_partial
#print axioms Verif.Obj.C167_converges_partial
#print axioms Verif.Obj.C167_vectors_partial
#print axioms Verif.Obj.C167_fails
#print axioms Verif.Obj.C168_misfit
#print axioms Verif.Obj.C168_fits_partial
#print axioms Verif.Obj.C168_film
#print axioms Verif.Obj.C169_weighted_partial
#print axioms Verif.Obj.C169_unweighted_partial
#print axioms Verif.Obj.C169_fails_unweighted
#print axioms Verif.Obj.C169_fails
#print axioms Verif.Obj.C170_difference_partial
#print axioms Verif.Obj.C170_best_partial
#print axioms Verif.Obj.C170_exists_partial
#print axioms Verif.Obj.C170_fails
#print axioms Verif.Disp.C171_cauchy
#print axioms Verif.Disp.C171_sellmeier
#print axioms Verif.Disp.C171_fails_sellmeier
#print axioms Verif.Disp.C171_lorentz_partial
#print axioms Verif.Disp.C171_fails
#print axioms Verif.Disp.C171_tauc
#print axioms Verif.Obj.C172_index
#print axioms Verif.Obj.C172_cauchy
#print axioms Verif.Obj.C172_sellmeier
#print axioms Verif.Obj.C172_lorentz_partial
#print axioms Verif.Obj.C172_tauc
#print axioms Verif.Obj.C173_proper_partial
#print axioms Verif.Obj.C173_improper
#print axioms Verif.Obj.C173_below_prior
#print axioms Verif.Obj.C173_proper_prior
#print axioms Verif.Obj.C173_lnsigma_lower
#print axioms Verif.TMM.C174_rate_partial
#print axioms Verif.TMM.C174_equal
#print axioms Verif.TMM.C174_psi_delta_partial
#print axioms Verif.Obj.C175_chisqr
#print axioms Verif.Obj.C175_isolated
#print axioms Verif.Obj.C175_noise
#print axioms Verif.Obj.C175_logpost
#print axioms Verif.Obj.C175_substrate
#print axioms Verif.Obj.C176_consistent
#print axioms Verif.Obj.C176_repeated
#print axioms Verif.Obj.C176_mean
#print axioms Verif.Obj.C176_mass
#print axioms Verif.Obj.C177_fit
#print axioms Verif.Obj.C177_posterior
#print axioms Verif.Obj.C177_turns
#print axioms Verif.Obj.C177_truth
#print axioms Verif.Obj.C177_needs_turns
#print axioms Verif.Obj.C178_wavelength
#print axioms Verif.Obj.C178_state
#print axioms Verif.Obj.C178_angle
#print axioms Verif.Obj.C178_measured
#print axioms Verif.Obj.C178_chisqr
#print axioms Verif.Obj.Labelled.C179_reads
#print axioms Verif.Obj.Labelled.C179_fails_encoding
#print axioms Verif.Obj.Labelled.C179_fails_handle
#print axioms Verif.Obj.Labelled.C179_fails_iteration
#print axioms Verif.Obj.Labelled.C179_residuals
#print axioms Verif.Obj.Labelled.C179_plot_partial
#print axioms Verif.Obj.Labelled.C179_fails_plot
#print axioms Verif.Obj.C180_fit
#print axioms Verif.Obj.C180_posterior
#print axioms Verif.Obj.C180_cauchy
#print axioms Verif.Obj.C180_sellmeier
#print axioms Verif.Obj.C181_fit
#print axioms Verif.Obj.C181_posterior
#print axioms Verif.Obj.C181_lorentz
#print axioms Verif.TMM.C181_half
#print axioms Verif.Obj.C182_truth
#print axioms Verif.Obj.C182_fit
#print axioms Verif.Obj.C182_sharp
#print axioms Verif.Obj.C183_fit
#print axioms Verif.Obj.C183_posterior
#print axioms Verif.Obj.C183_converse
#print axioms Verif.Obj.C183_film
#print axioms Verif.Obj.C184_isolated
#print axioms Verif.Obj.C184_sensitive
#print axioms Verif.Obj.C184_substrate
#print axioms Verif.Obj.C185_sellmeier
#print axioms Verif.Obj.C185_fit
#print axioms Verif.Obj.C185_posterior
#print axioms Verif.Obj.C185_cauchy
