# Axioms of the theorems in MANIFEST.json

Generated from `#print axioms`; grouped by the set of axioms.

## (none)

* `Rpwa.Fraction.isPrimeNumber_one`
* `Rpwa.FitCov.ex_bins`

## Classical.choice, Quot.sound, propext

* `Rpwa.Spin.getSpinRange_exact`
* `Rpwa.Spin.getSpinRange_negative`
* `Rpwa.Spin.getSpinRangeIn_exact`
* `Rpwa.Spin.getSpinRangeIn_valid_iff`
* `Rpwa.Spin.spinStatesCanCouple_iff`
* `Rpwa.Spin.spinAndProjAreCompatible_iff`
* `Rpwa.Spin.jpcIsExotic_iff`
* `Rpwa.Spin.jpcIsExotic_undefined`
* `Rpwa.Spin.igjpIsExotic_iff`
* `Rpwa.Spin.igjpIsExotic_undefined`
* `Rpwa.Clebsch.request_after_any_history`
* `Rpwa.Clebsch.cache_cells_distinct`
* `Rpwa.Clebsch.selection_rules`
* `Rpwa.Clebsch.compute_eq`
* `Rpwa.DFunction.history_independent_partial`
* `Rpwa.DFunction.value_with_cache_off`
* `Rpwa.DFunction.illegal_arguments_terminate`
* `Rpwa.DFunction.not_historyIndependent_cache_switch`
* `Rpwa.DFunction.not_historyIndependent`
* `Rpwa.DFunction.inconsistent_request_poisons_cache`
* `Rpwa.Factorial.factorial_after_any_history`
* `Rpwa.Acc.cascaded_sum_exact_partial`
* `Rpwa.Acc.cascaded_sum_no_samples`
* `Rpwa.Acc.cascaded_sum_overflow_ub`
* `Rpwa.Acc.not_cascadedExact`
* `Rpwa.ArrayUtils.offset_of_indices`
* `Rpwa.ArrayUtils.indices_of_offset`
* `Rpwa.FileUtils.changeFileExtension_not_idempotent`
* `Rpwa.Fraction.program_value`
* `Rpwa.Fraction.sqrt_flag`
* `Rpwa.Fraction.invert_flag`
* `Rpwa.Fraction.greater_iff`
* `Rpwa.Fraction.sumSignedRoots_spec`
* `Rpwa.Fraction.equal_sound`
* `Rpwa.Fraction.equal_iff_partial`
* `Rpwa.Fraction.not_equal_complete`
* `Rpwa.Fraction.dval_sqrt_poisons`
* `Rpwa.Fraction.infinity_flip`
* `Rpwa.Fraction.infinity_add`
* `Rpwa.Fraction.am0ToJ_value`
* `Rpwa.Fraction.cSubEll_value`
* `Rpwa.Fraction.cm0SubEll2_value`
* `Rpwa.Fraction.isPrimeNumber_iff`
* `Rpwa.Fraction.primeTable`
* `Rpwa.Particle.name_roundtrip_iff`
* `Rpwa.Particle.name_injective`
* `Rpwa.Particle.name_not_injective`
* `Rpwa.Particle.antiPart_conjugate`
* `Rpwa.Particle.antiPart_involution`
* `Rpwa.Particle.antiPart_quantum_numbers`
* `Rpwa.Particle.antiPart_not_involution_unclean`
* `Rpwa.Particle.lookup_after_insertions`
* `Rpwa.Particle.addEntry_wf`
* `Rpwa.Particle.entriesMatching_spec`
* `Rpwa.Particle.mem_entriesMatching`
* `Rpwa.Particle.decayMode_eq_not_transitive`
* `Rpwa.Particle.read_fileLine_partial`
* `Rpwa.Particle.not_dump_read`
* `Rpwa.Particle.malformed_line_ub`
* `Rpwa.Particle.dump_fractional_width`
* `Rpwa.EventMomenta.init_succeeds_iff`
* `Rpwa.EventMomenta.index_map_bijective`
* `Rpwa.EventMomenta.momenta_match_names`
* `Rpwa.EventMomenta.order_irrelevant`
* `Rpwa.Sym.bose_terms`
* `Rpwa.Sym.bose_normalised`
* `Rpwa.Sym.amplitude_exchange_invariant`
* `Rpwa.Sym.allGroupPermutations_spec`
* `Rpwa.Sym.groupsByJPI_partition`
* `Rpwa.Sym.isospin_misses_assignment`
* `Rpwa.Vertex.checkConsistency_iff`
* `Rpwa.Vertex.checkConsistency_isospin`
* `Rpwa.WaveSet.generated_waves`
* `Rpwa.WaveSet.generation_ends`
* `Rpwa.WaveSet.bose_removal`
* `Rpwa.WaveSet.cgTest_exact`
* `Rpwa.WaveSet.halfinteger_negative_M`
* `Rpwa.WaveSet.deprecated_name_duplicates`
* `Rpwa.Integral.element_is_event_average`
* `Rpwa.Integral.element_hermitian`
* `Rpwa.Integral.element_psd`
* `Rpwa.Integral.refused_integrate_changes_elements`
* `Rpwa.Integral.addAssign_iff`
* `Rpwa.Integral.addAssign_by_name`
* `Rpwa.Integral.eq_iff`
* `Rpwa.Integral.merge_commutes`
* `Rpwa.Integral.merge_associative`
* `Rpwa.Integral.merge_descriptions_partial`
* `Rpwa.Integral.merge_swaps_descriptions`
* `Rpwa.Integral.renormalize_keeps_elements`
* `Rpwa.Integral.mulAssign_spec`
* `Rpwa.Integral.divAssign_spec`
* `Rpwa.Integral.mulAssign_keeps_elements_partial`
* `Rpwa.Integral.mulAssign_changes_elements`
* `Rpwa.Integral.ascii_roundtrip_partial`
* `Rpwa.Integral.ascii_roundtrip_fails`
* `Rpwa.Lik.buildParDataStruct_returns`
* `Rpwa.Lik.parameters_enumerate_components`
* `Rpwa.Lik.copyTo_copyFrom`
* `Rpwa.Lik.copyFrom_copyTo`
* `Rpwa.Lik.buildProdAmpArrays_agree`
* `Rpwa.Lik.parName_injective`
* `Rpwa.Lik.gradient_is_derivative`
* `Rpwa.Lik.fdf_eq`
* `Rpwa.Lik.fdf_is_derivative`
* `Rpwa.Lik.cauchy_gradient_divides_by_zero`
* `Rpwa.Lik.hessian_is_second_derivative`
* `Rpwa.Lik.hessian_is_second_derivative_of_likelihood`
* `Rpwa.Lik.hessian_fixed_zero`
* `Rpwa.Lik.hessian_symmetric`
* `Rpwa.Lik.doDerivative_fresh_partial`
* `Rpwa.Lik.doDerivative_hit`
* `Rpwa.Lik.stale_after_setPriorType`
* `Rpwa.Lik.correctParamSigns_returns`
* `Rpwa.Lik.correctParamSigns_out_of_range`
* `Rpwa.Lik.correctParamSigns_same_likelihood`
* `Rpwa.Lik.correctParamSigns_convention`
* `Rpwa.Lik.correctParamSigns_idempotent`
* `Rpwa.Lik.correctParamSigns_keeps_phases`
* `Rpwa.Lik.covariance_partial`
* `Rpwa.Lik.covariance_after_init`
* `Rpwa.Lik.covariance_fails_after_empty_wave`
* `Rpwa.Lik.eigenvectors_partial`
* `Rpwa.Lik.normalized_likelihood`
* `Rpwa.Lik.normalized_counterpart`
* `Rpwa.Lik.normalized_integrals`
* `Rpwa.Lik.waveNorm_pos`
* `Rpwa.Fit.spinDensityMatrixElem_eq_partial`
* `Rpwa.Fit.spinDensityMatrixElem_hermitian`
* `Rpwa.Fit.spinDensityMatrix_posSemidef`
* `Rpwa.Fit.intensity_eq`
* `Rpwa.Fit.intensityOf_eq`
* `Rpwa.Fit.intensity_nonneg`
* `Rpwa.Fit.intensityOf_nonneg`
* `Rpwa.Fit.flat_wave_counts_flat_isobars`
* `Rpwa.Fit.spinDensityMatrixElemCov_propagates`
* `Rpwa.Fit.overlapErr_propagates`
* `Rpwa.Fit.intensityErr_propagates`
* `Rpwa.Fit.phaseErr_propagates`
* `Rpwa.Fit.phaseErr_propagates_relative`
* `Rpwa.Fit.coherenceErr_propagates_partial`
* `Rpwa.Fit.intensityErrOf_propagates`
* `Rpwa.Fit.coherenceErr_too_small`
* `Rpwa.Fit.flat_isobar_integral`
* `Rpwa.Fit.coherence_mem_unit_partial`
* `Rpwa.Fit.coherence_comm`
* `Rpwa.Fit.coherence_rank_one`
* `Rpwa.Fit.no_interference`
* `Rpwa.Fit.phase_comm`
* `Rpwa.Fit.refill_eq_iff`
* `Rpwa.Fit.refill_same_names_partial`
* `Rpwa.Fit.reset_fill`
* `Rpwa.Fit.fillFrom_copy`
* `Rpwa.Fit.fill_fresh_waveNames`
* `Rpwa.Fit.fill_fresh_indexMap`
* `Rpwa.Fit.fill_labelled`
* `Rpwa.Fit.refill_stale`
* `Rpwa.Fit.fillFrom_select`
* `Rpwa.Fit.fill_fields`
* `Rpwa.Fit.waveName_identifies`
* `Rpwa.Fit.waveName_not_in_other`
* `Rpwa.Fit.waveName_waveId`
* `Rpwa.Fit.labelled_of_generated`
* `Rpwa.Fit.flat_in_waveName`
* `Rpwa.Fit.waveName_needs_parity`
* `Rpwa.Best.getFitResults_spec`
* `Rpwa.Best.first_is_best`
* `Rpwa.Best.nothing_lost`
* `Rpwa.CMat.beq_iff_partial`
* `Rpwa.CMat.equalToPrecision_iff_partial`
* `Rpwa.CMat.beq_wide_ub`
* `Rpwa.CMat.beq_tall_ignores_last`
* `Rpwa.CMat.t_spec`
* `Rpwa.CMat.mul_spec`
* `Rpwa.CMat.add_sub_spec`
* `Rpwa.CMat.dagger_spec`
* `Rpwa.CMat.dagger_adjoint_partial`
* `Rpwa.CMat.dagger_not_adjoint`
* `Rpwa.CMat.determinant_spec`
* `Rpwa.CMat.store_read`
* `Rpwa.CMat.store_read_empty`
* `Rpwa.CMat.no_double_delete_partial`
* `Rpwa.CMat.double_delete_after_store`
* `Rpwa.PSpace.cartesian_spherical_partial`
* `Rpwa.PSpace.cartesian_spherical_approx`
* `Rpwa.PSpace.cartesian_spherical_loses`
* `Rpwa.PSpace.spherical_cartesian_partial`
* `Rpwa.PSpace.spherePoint_unit`
* `Rpwa.PSpace.setAngles_spec_partial`
* `Rpwa.PSpace.setAngles_not_unit`
* `Rpwa.PSpace.setAngles_wrong_rho`
* `Rpwa.PSpace.pickUniformAngles_spec`
* `Rpwa.PSpace.pickUniformAngles_consistent`
* `Rpwa.PSpace.calculateRho_spec`
* `Rpwa.PSpace.dRho_derivative`
* `Rpwa.PSpace.dR_derivative_partial`
* `Rpwa.PSpace.dR_not_derivative`
* `Rpwa.PSpace.sphere_area`
* `Rpwa.PSpace.getDS_sq`
* `Rpwa.PSpace.getDAHat_isotropic`
* `Rpwa.Storage.written_hash_valid`
* `Rpwa.Storage.written_content`
* `Rpwa.Storage.recalculateHash_spec`
* `Rpwa.Storage.hash_identifies_events`
* `Rpwa.Storage.duplicate_names_break_hash`
* `Rpwa.Storage.amp_written_hash_valid`
* `Rpwa.Storage.amp_written_content`
* `Rpwa.Storage.hash_identifies_amplitudes_partial`
* `Rpwa.Storage.merge_auxString`
* `Rpwa.Storage.merge_empty`
* `Rpwa.Storage.merge_refused_iff`
* `Rpwa.Storage.merge_concat`
* `Rpwa.Storage.merge_same_names`
* `Rpwa.Storage.merge_again`
* `Rpwa.Storage.merge_drops_later_variables`
* `Rpwa.Storage.merge_loses_type`
* `Rpwa.Storage.merge_ignores_later_bins`
* `Rpwa.Otf.useEvent_iff`
* `Rpwa.Otf.inBoundaries_iff`
* `Rpwa.Otf.eventIndices_spec`
* `Rpwa.Otf.grid_partition`
* `Rpwa.Otf.binned_sample_partition`
* `Rpwa.Otf.binned_integrals_add`
* `Rpwa.Otf.missing_variable_is_zero`
* `Rpwa.Otf.addAmplitude_selected`
* `Rpwa.Otf.waves_aligned`
* `Rpwa.Otf.setOnTheFlyBinning_registers`
* `Rpwa.Otf.binned_amplitudes`
* `Rpwa.Otf.unknown_file_misaligns`
* `Rpwa.MultiBin.lt_iff`
* `Rpwa.MultiBin.lt_irrefl'`
* `Rpwa.MultiBin.lt_trans'`
* `Rpwa.MultiBin.lt_total`
* `Rpwa.MultiBin.le_antisymm'`
* `Rpwa.MultiBin.le_trans'`
* `Rpwa.MultiBin.operators_consistent_partial`
* `Rpwa.MultiBin.gt_both_ways`
* `Rpwa.MultiBin.gt_other_variables`
* `Rpwa.MultiBin.overlap_iff`
* `Rpwa.MultiBin.overlap_strict_iff`
* `Rpwa.MultiBin.adjacent_bins_overlap`
* `Rpwa.MultiBin.disjoint_bins_ordered`
* `Rpwa.MultiBin.contains_iff`
* `Rpwa.MultiBin.inBin_iff`
* `Rpwa.MultiBin.fromUniqueStr_uniqueStr_partial`
* `Rpwa.MultiBin.uniqueStr_inj_partial`
* `Rpwa.MultiBin.uniqueStr_collision`
* `Rpwa.MultiBin.uniqueStr_lost`
* `Rpwa.MultiBin.mem_eventFileIds`
* `Rpwa.MultiBin.eventFileIds_complete`
* `Rpwa.MultiBin.eventFileIds_sorted`
* `Rpwa.MultiBin.eventFileIds_events`
* `Rpwa.MultiBin.amplitudeFileName_inj`
* `Rpwa.MultiBin.amplitudeFilePath_inj_partial`
* `Rpwa.MultiBin.amplitudeFilePath_unique`
* `Rpwa.MultiBin.tag_collision`
* `Rpwa.MultiBin.integralFileName_inj`
* `Rpwa.MultiBin.integralFileOf_isSome`
* `Rpwa.MultiBin.integralFileOf_inj`
* `Rpwa.MultiBin.filesInBin_spec`
* `Rpwa.MultiBin.readBinning_grid`
* `Rpwa.MultiBin.readBinning_list`
* `Rpwa.MultiBin.expandAxis_range`
* `Rpwa.MultiBin.readBinning_zero_edge`
* `Rpwa.MultiBin.readBinning_single_edge`
* `Rpwa.ResFit.chiSquare_history`
* `Rpwa.ResFit.logLikelihood_history`
* `Rpwa.ResFit.chiSquare_independent`
* `Rpwa.ResFit.productionAmplitude_offCentre`
* `Rpwa.ResFit.Ex.shared_cache`
* `Rpwa.ResFit.layout_nodup`
* `Rpwa.ResFit.import_count`
* `Rpwa.ResFit.import_at`
* `Rpwa.ResFit.import_injective`
* `Rpwa.ResFit.import_frame`
* `Rpwa.ResFit.used_in_layout`
* `Rpwa.ResFit.shared_couplings`
* `Rpwa.ResFit.own_couplings`
* `Rpwa.ResFit.shape_in_layout`
* `Rpwa.ResFit.startValues_layout`
* `Rpwa.ResFit.startValues_import`
* `Rpwa.ResFit.startValues_length`
* `Rpwa.ResFit.anchor_unique`
* `Rpwa.ResFit.maps_no_duplicates`
* `Rpwa.ResFit.waveLimits_spec`
* `Rpwa.ResFit.pairLimits_spec`
* `Rpwa.ResFit.waveLimits_ignored`
* `Rpwa.ResFit.nrDataPoints_spec`
* `Rpwa.ResFit.Ex.dataPoints_gap`
* `Rpwa.Gen.xSystem_spec`
* `Rpwa.Gen.xSystem_complete`
* `Rpwa.Gen.xSystem_surjective`
* `Rpwa.Gen.tPrime_spec`
* `Rpwa.Gen.tPrime_of_generated`
* `Rpwa.Gen.xSystem_too_large`
* `Rpwa.Gen.exists_too_large`
* `Rpwa.Gen.kinematics_spec`
* `Rpwa.Gen.kinematics_impossible`
* `Rpwa.Gen.kinematics_complete`
* `Rpwa.Gen.pickMasses_valid`
* `Rpwa.Gen.generateDecay_spec`
* `Rpwa.Gen.generateDecay_below`
* `Rpwa.Gen.pickAngles_cos`
* `Rpwa.Gen.pickAngles_phi`
* `Rpwa.Gen.weight_chung`
* `Rpwa.Gen.weight_chung_nonneg`
* `Rpwa.Gen.weight_genbod`
* `Rpwa.Gen.weight_genbod_density`
* `Rpwa.Gen.weight_nuphaz`
* `Rpwa.Gen.norm_current`
* `Rpwa.Gen.norm_stale`
* `Rpwa.Gen.norm_stale_differs`
* `Rpwa.Gen.estimateMaxWeight_spec`
* `Rpwa.Gen.eventAccepted_spec`
* `Rpwa.Gen.eventAccepted_special`
* `Rpwa.Gen.weights_current_partial`
* `Rpwa.Gen.weights_first`
* `Rpwa.Gen.weights_stale`
* `Rpwa.Gen.findWeight_outside`
* `Rpwa.Gen.event_one_particle`
* `Rpwa.Gen.build_below`
* `Rpwa.Gen.event_spec`
* `Rpwa.Gen.accept_iff`
* `Rpwa.Gen.accept_all`
* `Rpwa.Amp.gj_unique`
* `Rpwa.Amp.gj_frame`
* `Rpwa.Amp.gj_beam_along_z`
* `Rpwa.Amp.gj_invariant`
* `Rpwa.Amp.gj_rotated`
* `Rpwa.Amp.gj_opposite`
* `Rpwa.Amp.gj_opposite_occurs`
* `Rpwa.Amp.gj_collinear`
* `Rpwa.Amp.hf_unique`
* `Rpwa.Amp.hf_frame`
* `Rpwa.Amp.hf_reflY`
* `Rpwa.Amp.hf_rotZ`
* `Rpwa.Amp.hf_along_z`
* `Rpwa.Amp.helicity_reflection`
* `Rpwa.Amp.canonical_reflection`
* `Rpwa.Amp.helicity_inversion`
* `Rpwa.Amp.canonical_inversion`
* `Rpwa.Amp.helicity_reflection_M`
* `Rpwa.Amp.canonical_reflection_M`
* `Rpwa.Amp.amplitude_same_frame`
* `Rpwa.Amp.amplitude_rotated`
* `Rpwa.Amp.amplitude_reflection_helicity`
* `Rpwa.Amp.amplitude_reflection_canonical`
* `Rpwa.Amp.amplitude_inversion_helicity`
* `Rpwa.Amp.amplitude_inversion_canonical`
* `Rpwa.Amp.intensity_reflection`
* `Rpwa.Amp.formalisms_agree`
* `Rpwa.Amp.scalar_amplitude`
* `Rpwa.Phys.decays_unique`
* `Rpwa.Phys.breakupMomentum_iff`
* `Rpwa.Phys.breakupMomentum_none`
* `Rpwa.Phys.breakupMomentum_event`
* `Rpwa.Phys.breakupMomentumComplex_spec`
* `Rpwa.Phys.barrierFactorSquared_spec`
* `Rpwa.Phys.barrierFactorSquared_other`
* `Rpwa.Phys.barrierFactorSquared_mono`
* `Rpwa.Phys.reflectivityFactor_spec`
* `Rpwa.Phys.threeBody_range`
* `Rpwa.Phys.dalitzKinematicBorder_spec`
* `Rpwa.Phys.dalitzKinematicBorder_beyond`
* `Rpwa.MassDep.breitWigner_spec`
* `Rpwa.MassDep.ves_sheet`
* `Rpwa.MassDep.ampVes_above`
* `Rpwa.MassDep.ampVes_below`
* `Rpwa.MassDep.relBW_spec`
* `Rpwa.MassDep.bw_spec`
* `Rpwa.MassDep.relBW_highL`
* `Rpwa.MassDep.constWidth_spec`
* `Rpwa.MassDep.rhoBW_spec`
* `Rpwa.MassDep.rhoBW_peak`
* `Rpwa.MassDep.f0980BW_spec`
* `Rpwa.MassDep.rhoBW_abort`
* `Rpwa.MassDep.flatte_spec`
* `Rpwa.MassDep.AMP.amp_spec`
* `Rpwa.MassDep.AMP.amp_above`
* `Rpwa.MassDep.AMP.amp_history`
* `Rpwa.MassDep.Glass.amp_spec`
* `Rpwa.MassDep.Glass.amp_unitary`
* `Rpwa.MassDep.Glass.amp_outside`
* `Rpwa.MassDep.Palano.amp_spec`
* `Rpwa.MassDep.Palano.amp_some`
* `Rpwa.MassDep.Palano.amp_outside`
* `Rpwa.MassDep.unit_circle`
* `Rpwa.MassDep.rhoPrime_spec`
* `Rpwa.MassDep.binned_add`
* `Rpwa.MassDep.binSum_spec`
* `Rpwa.KeyFile.glass_read`
* `Rpwa.KeyFile.X_massDep_written`
* `Rpwa.KeyFile.Ex.glass_created`
* `Rpwa.KeyFile.roundTrip`
* `Rpwa.KeyFile.roundTrip_exact`
* `Rpwa.KeyFile.glass_aborts`
* `Rpwa.KeyFile.palano_lost`
* `Rpwa.KeyFile.settings_lost`
* `Rpwa.KeyFile.lepto_recoil_lost`
* `Rpwa.KeyFile.other_production`
* `Rpwa.KeyFile.unnamed_isobar`
* `Rpwa.KeyFile.Ex.swapped`
* `Rpwa.PSI.interpolate_spec`
* `Rpwa.PSI.interpolate_range`
* `Rpwa.PSI.interpolate_point`
* `Rpwa.PSI.addToTable_spec`
* `Rpwa.PSI.getInt0_spec`
* `Rpwa.PSI.amp_spec`
* `Rpwa.PSI.amp_peak`
* `Rpwa.PSI.amp_outside`
* `Rpwa.PSI.amp_threshold`
* `Rpwa.PSI.history_spec`
* `Rpwa.PSI.history_returns`
* `Rpwa.PSI.amp_repeat`
* `Rpwa.PSI.amp_first_differs`
* `Rpwa.PSI.fill_spec`
* `Rpwa.PSI.fill_forever`
* `Rpwa.PSI.fill_below`
* `Rpwa.PSI.file_orderly`
* `Rpwa.PSI.file_crash`
* `Rpwa.PSI.file_race`
* `Rpwa.PSI.file_torn`
* `Rpwa.PSI.file_lost`
* `Rpwa.KeyFile.parseWaves_spec`
* `Rpwa.KeyFile.parseWaves_length`
* `Rpwa.KeyFile.no_bins`
* `Rpwa.KeyFile.bad_name`
* `Rpwa.KeyFile.integer_edge`
* `Rpwa.PwaFit.pwaFit_result`
* `Rpwa.PwaFit.pwaFit_returns`
* `Rpwa.PwaFit.pwaFit_converged`
* `Rpwa.PwaFit.pwaFit_covariance_partial`
* `Rpwa.PwaFit.pwaFit_covariance_wrong`
* `Rpwa.PwaFit.pwaFit_hasHessian_always`
* `Rpwa.PwaFit.fill_matrices`
* `Rpwa.PwaFit.stationary_events`
* `Rpwa.PwaFit.stationary_events_example`
* `Rpwa.PwaFit.startValues_spec`
* `Rpwa.PwaFit.startValues_fixed`
* `Rpwa.PwaFit.randomStart_bounds`
* `Rpwa.PwaFit.fitParameter_stored`
* `Rpwa.PwaFit.fitParameter_flat`
* `Rpwa.PwaFit.fitParameter_lost`
* `Rpwa.PwaFit.start_lost`
* `Rpwa.PwaFit.start_lost_example`
* `Rpwa.PwaFit.chooseStart_closest_partial`
* `Rpwa.PwaFit.chooseStart_first`
* `Rpwa.PwaFit.chooseStart_not_closest`
* `Rpwa.PwaFit.pwaFit_no_mass`
* `Rpwa.PwaFit.nloptFunc_value`
* `Rpwa.PwaFit.nloptFunc_gradient`
* `Rpwa.PwaFit.nlopt_buffer_overflow`
* `Rpwa.PwaFit.nlopt_buffer_overflow_example`
* `Rpwa.PwaFit.nloptStart_spec`
* `Rpwa.PwaFit.nlopt_empty_wave`
* `Rpwa.PwaFit.nlopt_no_start`
* `Rpwa.PwaFit.pwaNloptFit_result`
* `Rpwa.PwaFit.pwaNloptFit_returns`
* `Rpwa.PwaFit.pwaNloptFit_converged`
* `Rpwa.PwaFit.nlopt_stop_reason_ignored`
* `Rpwa.PwaFit.nlopt_maxeval_converged`
* `Rpwa.PwaFit.pwaNloptFit_covariance`
* `Rpwa.Lik.SetupInput.setup_finished`
* `Rpwa.Lik.SetupInput.setup_order_irrelevant`
* `Rpwa.Lik.SetupInput.setup_finishInit`
* `Rpwa.Lik.SetupInput.setup_matches`
* `Rpwa.Lik.SetupInput.setup_returns`
* `Rpwa.Lik.exSetup_loads`
* `Rpwa.Lik.eval_needs_finish`
* `Rpwa.Lik.second_likelihood_acceptance`
* `Rpwa.Lik.finishInit_twice`
* `Rpwa.Lik.addAmplitude_after_finishInit`
* `Rpwa.Lik.finishInit_new`
* `Rpwa.Lik.init_twice`
* `Rpwa.Lik.duplicate_never_finishes`
* `Rpwa.Acc.compensated_sum_rounded`
* `Rpwa.Acc.cascaded_sum_rounded`
* `Rpwa.Acc.kahan_step`
* `Rpwa.Acc.kahan_inv`
* `Rpwa.Acc.sim_result`
* `Rpwa.Wgt.weights_spec`
* `Rpwa.Wgt.weights_total`
* `Rpwa.Wgt.selectFit_spec`
* `Rpwa.Wgt.selectFit_none`
* `Rpwa.Wgt.selectFit_empty`
* `Rpwa.Wgt.openAmpFiles_spec`
* `Rpwa.Wgt.getIntensity_general`
* `Rpwa.Wgt.getIntensity_spec`
* `Rpwa.Wgt.getIntensity_refuses`
* `Rpwa.Wgt.step_flags`
* `Rpwa.Wgt.load_spec`
* `Rpwa.Wgt.intensity_eq_weight`
* `Rpwa.Wgt.higher_ranks_ignored`
* `Rpwa.Wgt.rank2_wrong`
* `Rpwa.Wgt.fill_lists`
* `Rpwa.Wgt.weights_single`
* `Rpwa.Wgt.getIntensity_momenta`
* `Rpwa.Wgt.getIntensityX_refuses`
* `Rpwa.Wgt.initX_names`
* `Rpwa.Wgt.init_names`
* `Rpwa.Wgt.ex_single`
* `Rpwa.Fit.varied_returns`
* `Rpwa.Fit.varied_mean`
* `Rpwa.Fit.varied_cov`
* `Rpwa.Fit.varied_cov_right_iff`
* `Rpwa.Fit.varied_total_variance`
* `Rpwa.Fit.varied_last_too_small`
* `Rpwa.Fit.varied_swapped_example`
* `Rpwa.Fit.varied_cov_wrong`
* `Rpwa.Fit.standard_exists`
* `Rpwa.Pick.initRanges_iff`
* `Rpwa.Pick.exp_init_iff`
* `Rpwa.Pick.exp_init_again`
* `Rpwa.Pick.poly_init_again`
* `Rpwa.Pick.uniform_init_again`
* `Rpwa.Pick.not_initialised`
* `Rpwa.Pick.init_ready`
* `Rpwa.Pick.paramsFor_ready`
* `Rpwa.Pick.paramsFor_between`
* `Rpwa.Pick.paramsFor_below`
* `Rpwa.Pick.paramsFor_above`
* `Rpwa.Pick.interpolate_spec`
* `Rpwa.Pick.pickT_single`
* `Rpwa.Pick.pickT_law`
* `Rpwa.Pick.pick_mass`
* `Rpwa.Pick.pickT_several`
* `Rpwa.Pick.newton_sound`
* `Rpwa.Pick.uniform_init_iff`
* `Rpwa.Pick.uniformPick_spec`
* `Rpwa.Pick.poly_init_iff`
* `Rpwa.Pick.polynomial_eq`
* `Rpwa.Pick.rejectLoop_iff`
* `Rpwa.Pick.poly_law`
* `Rpwa.Pick.paramsFor_first`
* `Rpwa.Pick.exPicker_first`
* `Rpwa.Pick.even_entry`
* `Rpwa.Pick.pickT_never`
* `Rpwa.Pick.never_example`
* `Rpwa.Pick.newton_negative`
* `Rpwa.Pick.poly_never`
* `Rpwa.Pick.stale_slopes`
* `Rpwa.Pick.exSettings_init`
* `Rpwa.Pick.exPicker_ready`
* `Rpwa.Pick.exPicker_params`
* `Rpwa.BeamGen.load_iff`
* `Rpwa.BeamGen.load_linked`
* `Rpwa.BeamGen.load_ub_iff`
* `Rpwa.BeamGen.run_sequential`
* `Rpwa.BeamGen.event_random`
* `Rpwa.BeamGen.random_uniform`
* `Rpwa.BeamGen.randomizeStart_range`
* `Rpwa.BeamGen.run_defined`
* `Rpwa.BeamGen.run_sequential_beam`
* `Rpwa.BeamGen.vertexZ_inTarget`
* `Rpwa.BeamGen.eventSimple_spec`
* `Rpwa.BeamGen.depth_law`
* `Rpwa.BeamGen.radius_law`
* `Rpwa.BeamGen.setXYZM_spec`
* `Rpwa.BeamGen.fromMomenta_exact`
* `Rpwa.BeamGen.fromMomenta_smeared`
* `Rpwa.BeamGen.truth_posterior`
* `Rpwa.BeamGen.fromMomentaCorrected_spec`
* `Rpwa.BeamGen.fromInclinations_spec`
* `Rpwa.BeamGen.smeared_mean`
* `Rpwa.BeamGen.smeared_cov`
* `Rpwa.BeamGen.depth_disabled`
* `Rpwa.BeamGen.load_missing`
* `Rpwa.BeamGen.load_noTree`
* `Rpwa.BeamGen.load_check_fails`
* `Rpwa.BeamGen.correction_after_load`
* `Rpwa.BeamGen.randomizeStart_no_file`
* `Rpwa.BeamGen.empty_tree`
* `Rpwa.BeamGen.takeZ_without_file`
* `Rpwa.BeamGen.takeZ_missing_file`
* `Rpwa.BeamGen.ex_run`
* `Rpwa.BeamGen.ex_eigen`
* `Rpwa.BeamGen.ex_standard`
* `Rpwa.Mgr.read_iff`
* `Rpwa.Mgr.read_false`
* `Rpwa.Mgr.describes_unique`
* `Rpwa.Mgr.protocol`
* `Rpwa.Mgr.plain_run`
* `Rpwa.Mgr.reach_inv`
* `Rpwa.Mgr.reach_defined`
* `Rpwa.Mgr.reach_event`
* `Rpwa.Mgr.step_gen`
* `Rpwa.Mgr.init_ready`
* `Rpwa.Mgr.init_shape`
* `Rpwa.Mgr.init_single`
* `Rpwa.Mgr.init_weights`
* `Rpwa.Mgr.event_good`
* `Rpwa.Mgr.event_shape`
* `Rpwa.Mgr.event_slices`
* `Rpwa.Mgr.override_shape`
* `Rpwa.Mgr.read_appends`
* `Rpwa.Mgr.read_twice`
* `Rpwa.Mgr.beam_file_sticky`
* `Rpwa.Mgr.beam_mode_kept`
* `Rpwa.Mgr.event_early`
* `Rpwa.Mgr.randomize_undefined`
* `Rpwa.Mgr.after_failure`
* `Rpwa.Mgr.override_too_late`
* `Rpwa.Mgr.integer_position`
* `Rpwa.Mgr.ex_describes`
* `Rpwa.Mgr.ex_runs`
* `Rpwa.Mgr.ex_failure`
* `Rpwa.Dec.accepted_is_tree`
* `Rpwa.Dec.tree_is_accepted`
* `Rpwa.Dec.accepted_iff`
* `Rpwa.Dec.momenta_add_up`
* `Rpwa.Dec.tree_of_ctx`
* `Rpwa.Dec.ex_tree`
* `Rpwa.Dec.ex_good`
* `Rpwa.Dec.ex_accepted`
* `Rpwa.Dec.clone_is_copy`
* `Rpwa.Dec.clone_independent`
* `Rpwa.Dec.clone_spec`
* `Rpwa.Dec.good_made`
* `Rpwa.Dec.ex_pointers`
* `Rpwa.Dec.ex_clone`
* `Rpwa.ResFit.dynamic_spec`
* `Rpwa.ResFit.dynamic_at`
* `Rpwa.ResFit.dynamic_below`
* `Rpwa.ResFit.dynamic_im`
* `Rpwa.ResFit.dynamic_stops`
* `Rpwa.ResFit.phaseSpace_exists`
* `Rpwa.ResFit.phaseSpace_mono`
* `Rpwa.ResFit.bw_unitary`
* `Rpwa.ResFit.bw_at`
* `Rpwa.ResFit.bw_circle`
* `Rpwa.ResFit.fixed_spec`
* `Rpwa.ResFit.integral_spec`
* `Rpwa.ResFit.maxMass_spec`
* `Rpwa.ResFit.exponential_spec`
* `Rpwa.ResFit.exponential_bounds`
* `Rpwa.ResFit.exponential_jump`
* `Rpwa.ResFit.tPrime_spec`
* `Rpwa.ResFit.exponentialIntegral_spec`
* `Rpwa.ResFit.tPrimeIntegral_spec`
* `Rpwa.ResFit.constant_spec`
* `Rpwa.ResFit.valueO_value`
* `Rpwa.ResFit.ex_dynamic`
* `Rpwa.ResFit.ex_stops`
* `Rpwa.ResFit.ex_exponential`
* `Rpwa.Dec.sub_decay`
* `Rpwa.Dec.sub_momenta`
* `Rpwa.Dec.sub_of_X`
* `Rpwa.Dec.Rooted.check`
* `Rpwa.Dec.grown_data`
* `Rpwa.Dec.grown_dfs`
* `Rpwa.Dec.sub_rejected`
* `Rpwa.Dec.sub_tree`
* `Rpwa.Dec.sub_good`
* `Rpwa.Dec.sub_bad`
* `Rpwa.Dec.ex_sub`
* `Rpwa.Dec.waves`
* `Rpwa.Dec.grow`
* `Rpwa.Dec.combine_spec`
* `Rpwa.Dec.newDecay_spec`
* `Rpwa.Dec.withProduction_spec`
* `Rpwa.Dec.Joinable.joined`
* `Rpwa.Dec.Joinable.inOrder`
* `Rpwa.Dec.Whole.cloned`
* `Rpwa.Dec.template`
* `Rpwa.Dec.ex_waves`
* `Rpwa.Evt.read_iff`
* `Rpwa.Evt.read_empty`
* `Rpwa.Evt.changed_particles`
* `Rpwa.Evt.read_limit`
* `Rpwa.Evt.round_trip`
* `Rpwa.Evt.name_of_id`
* `Rpwa.Evt.id_of_name`
* `Rpwa.Evt.digits_lost`
* `Rpwa.Evt.eta_prime`
* `Rpwa.Evt.open_single`
* `Rpwa.Evt.open_skips`
* `Rpwa.Evt.second_file_fails`
* `Rpwa.ISamp.target`
* `Rpwa.ISamp.prior_spec`
* `Rpwa.ISamp.prior_impossible`
* `Rpwa.ISamp.prior_threshold`
* `Rpwa.ISamp.likelihood_spec`
* `Rpwa.ISamp.box_iff`
* `Rpwa.ISamp.complete`
* `Rpwa.ISamp.stored_iff`
* `Rpwa.ISamp.event_spec`
* `Rpwa.ISamp.new_iff`
* `Rpwa.ResCfg.round_trip`
* `Rpwa.ResCfg.restart`
* `Rpwa.ResCfg.start_values`
* `Rpwa.ResCfg.written_ok`
* `Rpwa.ResCfg.write_needs_fsmd`
* `Rpwa.ResCfg.inf_error_ends`
* `Rpwa.ResCfg.readConfig_ok`
* `Rpwa.ResCfg.ex_round_trip`
* `Rpwa.ResCfg.ex_inf_error`
* `Rpwa.ResCfg.exCodec_faithful`
* `Rpwa.ResMin.declared`
* `Rpwa.ResMin.fit_done`
* `Rpwa.ResMin.kept`
* `Rpwa.ResMin.fixed_kept`
* `Rpwa.ResMin.anchor_real`
* `Rpwa.ResMin.limits_kept`
* `Rpwa.ResMin.order_left`
* `Rpwa.ResMin.lastMin_spec`
* `Rpwa.ResMin.quality_keys`
* `Rpwa.ResMin.quality_continue`
* `Rpwa.ResMin.quality_hesse`
* `Rpwa.ResMin.quality_ndf`
* `Rpwa.ResMin.initVars_restored`
* `Rpwa.ResMin.resume`
* `Rpwa.ResMin.exMz_sound`
* `Rpwa.ResMin.ex_fit`
* `Rpwa.ResMin.order_default`
* `Rpwa.ResMin.stored`
* `Rpwa.CgBox.tables_right`
* `Rpwa.CgBox.same_table`
* `Rpwa.CgBox.entry_zero`
* `Rpwa.CgBox.column_norm`
* `Rpwa.CgBox.libraries_agree`
* `Rpwa.CgBox.places_distinct`
* `Rpwa.CgBox.outside_triangle`
* `Rpwa.SpinTensor.hels_complete`
* `Rpwa.SpinTensor.components`
* `Rpwa.SpinTensor.components_orbital`
* `Rpwa.SpinTensor.normalized`
* `Rpwa.SpinTensor.symmetric`
* `Rpwa.SpinTensor.traceless`
* `Rpwa.SpinTensor.stretched`
* `Rpwa.SpinTensor.ampl_runs`
* `Rpwa.SpinTensor.ampl_covariant`
* `Rpwa.SpinTensor.ampl_bad_scheme`
* `Rpwa.SpinTensor.inner_last_pair`
* `Rpwa.SpinTensor.channel_amplitudes`
* `Rpwa.SpinTensor.channel_nonvanishing`
* `Rpwa.SpinTensor.left_out_iff`
* `Rpwa.SpinTensor.helicity_amplitudes`
* `Rpwa.SpinTensor.contribution_covariant`
* `Rpwa.SpinTensor.parity_partner`
* `Rpwa.Cuda.cuda_init`
* `Rpwa.Cuda.cuda_eval`
* `Rpwa.Cuda.cuda_no_leak`
* `Rpwa.Cuda.cuda_example`
* `Rpwa.Cuda.cuda_gradient`
* `Rpwa.Cuda.cuda_gradient_is_derivative`
* `Rpwa.Cuda.grid_covers`
* `Rpwa.Cuda.init_reshuffled`
* `Rpwa.Cuda.second_init_takes_over`
* `Rpwa.Cuda.close_releases`
* `Rpwa.Cuda.large_data_truncated`
* `Rpwa.Cuda.float_init_ub`
* `Rpwa.Cuda.no_device_no_value`
* `Rpwa.FitInts.add_entry`
* `Rpwa.FitInts.add_tree`
* `Rpwa.FitInts.add_refuses`
* `Rpwa.FitInts.add_flat_not_last`
* `Rpwa.FitInts.strip_entry`
* `Rpwa.FitInts.strip_then_add`
* `Rpwa.FitInts.strip_then_add_example`
* `Rpwa.FitInts.add_tree_example`
* `Rpwa.Attempts.seeds_exist`
* `Rpwa.Attempts.seeds_too_many`
* `Rpwa.Attempts.fitAll_all`
* `Rpwa.Attempts.fitAll_keep`
* `Rpwa.Attempts.fitAll_keep_none_converged`
* `Rpwa.Attempts.fitAll_keep_no_attempt`
* `Rpwa.Attempts.none_converged_example`
* `Rpwa.Attempts.parsOf_fit`
* `Rpwa.Attempts.addMatrices_fit`
* `Rpwa.Attempts.addMatrices_integrals`
* `Rpwa.Attempts.pwaFits_keep`
* `Rpwa.Attempts.pwaFit_is_fill`
* `Rpwa.Attempts.pwaNloptFit_is_fill`
* `Rpwa.Attempts.addCovariance_keeps`
* `Rpwa.Attempts.pwaFits_keep_example`
* `Rpwa.Attempts.pwaFits_no_likelihood`
* `Rpwa.IntMeta.calc_succeeds_iff`
* `Rpwa.IntMeta.calc_result`
* `Rpwa.IntMeta.calc_order`
* `Rpwa.IntMeta.calc_nothing`
* `Rpwa.IntMeta.merge_succeeds_iff`
* `Rpwa.IntMeta.merge_result`
* `Rpwa.IntMeta.merge_refused`
* `Rpwa.IntMeta.merge_of_calc`
* `Rpwa.IntMeta.otf_succeeds_iff`
* `Rpwa.IntMeta.otf_result`
* `Rpwa.IntMeta.otf_agrees`
* `Rpwa.IntMeta.Ex.consistent`
* `Rpwa.IntMeta.Ex.calc_example`
* `Rpwa.IntMeta.Ex.mergeable`
* `Rpwa.IntMeta.Ex.merge_example`
* `Rpwa.IntMeta.Ex.agrees_example`
* `Rpwa.IntMeta.Ex.vanishing_waves_refused`
* `Rpwa.IntMeta.Ex.refused_merge_keeps_hashes`
* `Rpwa.IntMeta.Ex.merged_bin_has_gap`
* `Rpwa.IntMeta.Ex.same_file_not_merged`
* `Rpwa.IntMeta.Ex.otf_not_merged`
* `Rpwa.Refit.refit_wave_list`
* `Rpwa.Refit.rebuild_ok`
* `Rpwa.Refit.likelihood_point`
* `Rpwa.Refit.pwaFit_point`
* `Rpwa.Refit.pwaNloptFit_point`
* `Rpwa.Refit.vanishes_iff`
* `Rpwa.Refit.wave_list_refused`
* `Rpwa.Refit.refit_parameters`
* `Rpwa.Refit.refit_fixed`
* `Rpwa.Refit.refit_covariance`
* `Rpwa.Refit.getFitResult_iff`
* `Rpwa.Refit.several_attempts_refused`
* `Rpwa.Refit.single_event_normalised`
* `Rpwa.Refit.refit_without_mass`
* `Rpwa.Refit.ex_fitOf`
* `Rpwa.Refit.ex_point`
* `Rpwa.Select.best_result_iff`
* `Rpwa.Select.no_result_iff`
* `Rpwa.Select.chosen_unique`
* `Rpwa.Select.best_filter`
* `Rpwa.Select.best_results`
* `Rpwa.Select.best_results_complete`
* `Rpwa.Select.best_results_refused`
* `Rpwa.Select.same_centre_overwritten`
* `Rpwa.Select.wave_list_iff`
* `Rpwa.Select.wave_list_last_line`
* `Rpwa.Select.blank_line_fails`
* `Rpwa.Select.two_blanks_ignored`
* `Rpwa.Select.wave_list_round_trip`
* `Rpwa.AmpCalc.amplitudes_of_events`
* `Rpwa.AmpCalc.nothing_if_unreadable`
* `Rpwa.AmpCalc.success_iff`
* `Rpwa.AmpCalc.success_complete`
* `Rpwa.AmpCalc.never_partial`
* `Rpwa.AmpCalc.never_partial_of_task`
* `Rpwa.AmpCalc.file_kept`
* `Rpwa.AmpCalc.crash_blocks`
* `Rpwa.AmpCalc.delete_and_retry`
* `Rpwa.AmpCalc.impossible_leaves_file`
* `Rpwa.AmpCalc.script_complete`
* `Rpwa.AmpCalc.script_twice`
* `Rpwa.AmpCalc.waves_selected`
* `Rpwa.Deweight.maxWeight_spec`
* `Rpwa.Deweight.deWeight_file`
* `Rpwa.Deweight.deWeight_zero`
* `Rpwa.Deweight.deWeight_refused`
* `Rpwa.Deweight.keep_independent`
* `Rpwa.Deweight.keep_probability`
* `Rpwa.Deweight.keep_probability_exact`
* `Rpwa.Deweight.keep_saturates`
* `Rpwa.Deweight.deWeight_unbiased`
* `Rpwa.Deweight.deWeight_expected_number`
* `Rpwa.Deweight.genPseudoData_file`
* `Rpwa.Deweight.genPseudoData_interrupted`
* `Rpwa.Deweight.genPseudoData_none`
* `Rpwa.Deweight.genPseudoData_model_fails`
* `Rpwa.Deweight.generate_deWeight`
* `Rpwa.EvtConvert.read_iff`
* `Rpwa.EvtConvert.all_used`
* `Rpwa.EvtConvert.extra_dropped`
* `Rpwa.EvtConvert.truncated_refused`
* `Rpwa.EvtConvert.incomplete_refused`
* `Rpwa.EvtConvert.round_trip`
* `Rpwa.EvtConvert.unknown_particle`
* `Rpwa.CheckKey.checkAmps_errors`
* `Rpwa.CheckKey.checkWave_data`
* `Rpwa.CheckKey.checkWave_skipped`
* `Rpwa.CheckKey.checkWave_undefined`
* `Rpwa.CheckKey.scaled_amplitude`
* `Rpwa.CheckKey.symmetric_accepted`
* `Rpwa.CheckKey.opposite_sign_found`
* `Rpwa.CheckKey.growing_accepted`
* `Rpwa.CheckKey.conserving_wave_passes`
* `Rpwa.CheckKey.testAmplitude_verdict`
* `Rpwa.CheckKey.without_data_passes`
* `Rpwa.CheckKey.checkKeyFiles_report`
* `Rpwa.TreeLeaf.reachable_good`
* `Rpwa.TreeLeaf.stored_same`
* `Rpwa.TreeLeaf.atLabel_spec`
* `Rpwa.TreeLeaf.define_spec`
* `Rpwa.TreeLeaf.set_spec`
* `Rpwa.TreeLeaf.add_iff`
* `Rpwa.TreeLeaf.add_atLabel`
* `Rpwa.TreeLeaf.sub_atLabel`
* `Rpwa.TreeLeaf.scale_atLabel`
* `Rpwa.TreeLeaf.sum_leaves`
* `Rpwa.TreeLeaf.equal_iff`
* `Rpwa.TreeLeaf.equal_same_size`
* `Rpwa.TreeLeaf.ex_unlabelled`
* `Rpwa.TreeLeaf.ex_equal`
* `Rpwa.TreeLeaf.ex_relabel`
* `Rpwa.PhaseGen.script_file`
* `Rpwa.PhaseGen.count_unique`
* `Rpwa.PhaseGen.script_tries`
* `Rpwa.PhaseGen.limits_spec`
* `Rpwa.PhaseGen.limit_ignored`
* `Rpwa.PhaseGen.nothing_asked`
* `Rpwa.PhaseGen.wrong_names`
* `Rpwa.PhaseGen.limit_needs_event`
* `Rpwa.PhaseGen.efficiency_low`
* `Rpwa.Arrays.combine_plain`
* `Rpwa.Arrays.combine_mat`
* `Rpwa.Arrays.setPart_spec`
* `Rpwa.Arrays.setPartMat_spec`
* `Rpwa.Arrays.setOne_spec`
* `Rpwa.Arrays.adjust_spec`
* `Rpwa.Arrays.adjustMat_spec`
* `Rpwa.Arrays.copy_spec`
* `Rpwa.Arrays.checkSize_iff`
* `Rpwa.Arrays.stale`
* `Rpwa.Plots.zeroWave_iff`
* `Rpwa.Plots.wave_spec`
* `Rpwa.Plots.curve_spec`
* `Rpwa.Plots.grid_even`
* `Rpwa.Plots.ps_scaled`
* `Rpwa.Plots.near_spec`
* `Rpwa.Plots.near_half`
* `Rpwa.Plots.near_unique`
* `Rpwa.Plots.phase_steps`
* `Rpwa.Plots.phase_continuous`
* `Rpwa.Plots.pair_spec`
* `Rpwa.Plots.jobs_nodup`
* `Rpwa.Plots.sumBins_all`
* `Rpwa.Plots.sum_spec`
* `Rpwa.Plots.sys_wrong_point`
* `Rpwa.Plots.sys_empty_band`
* `Rpwa.Plots.turning_jumps`
* `Rpwa.FitCov.sd_refused`
* `Rpwa.FitCov.sd_outside`
* `Rpwa.FitCov.sd_inverse`
* `Rpwa.FitCov.pa_refused`
* `Rpwa.FitCov.pa_amplitudes`
* `Rpwa.FitCov.pa_outside`
* `Rpwa.FitCov.pa_inverse_real`
* `Rpwa.FitCov.pa_inverse_rotated`
* `Rpwa.FitCov.slope_deriv`
* `Rpwa.FitCov.rotated_spec`
* `Rpwa.FitCov.massRange_spec`
* `Rpwa.FitCov.prepareBin_some`
* `Rpwa.FitCov.runBin_spec`
* `Rpwa.FitCov.runBins_spec`
* `Rpwa.FitCov.ex_sd`
* `Rpwa.FitCov.ex_pa`
* `Rpwa.FitCov.inverter_exists`
* `Rpwa.FitRead.checkMassBins_ok`
* `Rpwa.FitRead.checkMassBins_not_ub`
* `Rpwa.FitRead.readMassBins_ok`
* `Rpwa.FitRead.readFile_ok`
* `Rpwa.FitRead.readFile_ub`
* `Rpwa.FitRead.readFile_two`
* `Rpwa.FitRead.sdCov_block`
* `Rpwa.FitRead.readWaves_spec`
* `Rpwa.FitRead.rotate_closest`
* `Rpwa.FitRead.rotate_within`
* `Rpwa.FitRead.bandsOf_ok`
* `Rpwa.FitRead.bandsOf_done`
* `Rpwa.FitRead.ex_file`
* `Rpwa.FitRead.ex_goodFile`
* `Rpwa.FitRead.ex_chain`
* `Rpwa.FitRead.ex_bands`
* `Rpwa.FitRead.ex_sdCov`
* `Rpwa.FitData.chiSquare_leastSquares`
* `Rpwa.FitData.chiSquare_leastSquares_amps`
* `Rpwa.FitData.chi2Rho_leastSquares`
* `Rpwa.FitData.chi2Amps_leastSquares`
* `Rpwa.FitData.rho_massBin`
* `Rpwa.FitData.inverse_allowed`
* `Rpwa.FitData.residual_exists`
* `Rpwa.FitData.ampResidual_exists`
* `Rpwa.FitData.ex_chiSquare`
* `Rpwa.FitData.ex_loaded`
* `Rpwa.FitData.ex_loaded_amps`
* `Rpwa.FitData.ex_chiSquare_amps`
* `Rpwa.Angles.mass_once`
* `Rpwa.Angles.angles_once`
* `Rpwa.Angles.mass_count`
* `Rpwa.Angles.fills_nodup`
* `Rpwa.Angles.combo_once`
* `Rpwa.Angles.combo_title`
* `Rpwa.Angles.combineSyms_spec`
* `Rpwa.Angles.combineOne_spec`
* `Rpwa.Angles.combineOne_perm`
* `Rpwa.Angles.ex_overcount`
* `Rpwa.Angles.ex_combine`
* `Rpwa.MassShapes.shapes_spec`
* `Rpwa.MassShapes.shapes_fresh`
* `Rpwa.MassShapes.single_spec`
* `Rpwa.MassShapes.single_fresh`
* `Rpwa.MassShapes.kallen_neg`
* `Rpwa.MassShapes.decays`
* `Rpwa.MassShapes.decays_unique`
* `Rpwa.MassShapes.below_difference`
* `Rpwa.MassShapes.ex_shapes`
* `Rpwa.MassShapes.ex_ok`
* `Rpwa.ResFit.equalStructure_iff`
* `Rpwa.ResFit.mapping_same`
* `Rpwa.ResFit.mapping_iff`
* `Rpwa.ResFit.mappingEqual_iff`
* `Rpwa.ResFit.sum_iff`
* `Rpwa.ResFit.sum_ok`
* `Rpwa.ResFit.fsmd_iff`
* `Rpwa.ResFit.SumEx.sums`
* `Rpwa.ResFit.SumEx.fsmd_twice`
* `Rpwa.ResFit.SumEx.other_anchor`
* `Rpwa.ResFit.SumEx.fewer_waves`
* `Rpwa.Refit.slices_of_fit`
* `Rpwa.Refit.eigenvectors_free`
* `Rpwa.Refit.inverse_symmetric`
* `Rpwa.Refit.setup_accHermitian`
* `Rpwa.Refit.sliceLoop_neg`
* `Rpwa.Refit.eigenOk_exists`
* `Rpwa.Refit.ex_slices`
* `Rpwa.Lik.slice_first`
* `Rpwa.Lik.gradient_line`
* `Rpwa.Lik.slice_second`
* `Rpwa.Lik.hessian_of_eigenvector`
* `Rpwa.Lik.parabola_osculates`
* `Rpwa.Lik.parabola_approximates`
* `Rpwa.Lik.slice_minimum`
* `Rpwa.Lik.slice_maximum`
* `Rpwa.Lik.ex_parabola`
* `Rpwa.DataObj.construct_consistent`
* `Rpwa.DataObj.construct_inconsistent`
* `Rpwa.DataObj.construct_noMassBins`
* `Rpwa.DataObj.construct_accepts`
* `Rpwa.DataObj.reads_defined`
* `Rpwa.DataObj.missing_matrix_silent`
* `Rpwa.DataObj.ex_missing`
* `Rpwa.DataObj.ex_dataObj`
* `Rpwa.DataObj.exArgs_typed`
* `Rpwa.DataObj.exArgs_consistent`
* `Rpwa.DataObj.anchors_found`
* `Rpwa.DataObj.anchors_missing`
* `Rpwa.DataObj.ex_anchors`
* `Rpwa.ISamp.generated_events`
* `Rpwa.ISamp.generated_all`
* `Rpwa.ISamp.generate_noChains`
* `Rpwa.ISamp.ex_generated`

## Quot.sound, propext

* `Rpwa.FileUtils.directory_fileName`
* `Rpwa.FileUtils.stem_extension`
* `Rpwa.FileUtils.changeFileExtension_spec`
* `Rpwa.Particle.antiDaughters_involution`
* `Rpwa.EventMomenta.revert_permutes`
* `Rpwa.Sym.isobarIsAffected_iff`
* `Rpwa.Sym.isospin_kept_sound`
* `Rpwa.Sym.isospin_first_kept_partial`
* `Rpwa.Vertex.g_eigenstate_to_non_eigenstates_rejected`
* `Rpwa.WaveSet.postProcess_spec`
* `Rpwa.WaveSet.bose_tags_once`
* `Rpwa.Fit.literalRx_rxLit`
* `Rpwa.Storage.layout_not_hashed`
* `Rpwa.MultiBin.fallbackBins_spec`
* `Rpwa.ResFit.Ex.no_duplicates`
* `Rpwa.ResFit.Ex.coupling_lost`
* `Rpwa.ResFit.Ex.coupling_abort`
* `Rpwa.KeyFile.particle_read`
* `Rpwa.KeyFile.pipe_fits`
* `Rpwa.KeyFile.pipe_blocks`
* `Rpwa.Dec.dfs_spec`
* `Rpwa.Dec.shared_accepted`
* `Rpwa.Dec.ex_input`
* `Rpwa.Dec.clone_fs_broken`
* `Rpwa.Dec.replaced_production`
* `Rpwa.Dec.sub_input`
* `Rpwa.Evt.process_tree`
* `Rpwa.ResMin.words_iff`
* `Rpwa.ResMin.wave_parts`
* `Rpwa.Attempts.seeds_spec`
* `Rpwa.Attempts.seeds_example`
* `Rpwa.AmpCalc.all_pairs`
* `Rpwa.AmpCalc.pairs_of_id`
* `Rpwa.PhaseGen.freeName_spec`
* `Rpwa.Arrays.setVec_spec`
* `Rpwa.Arrays.copy_refused`
* `Rpwa.Plots.grid_center`
* `Rpwa.Plots.pairSys_ignores`
* `Rpwa.Plots.jobs_wave`
* `Rpwa.Plots.jobs_pair`
* `Rpwa.Plots.jobs_sum`
* `Rpwa.Plots.jobs_fsmd`
* `Rpwa.Plots.sum_refused`
* `Rpwa.Plots.halfBin_spec`
* `Rpwa.FitCov.covIdx_lt`
* `Rpwa.FitCov.covIdx_pairRow`
* `Rpwa.FitCov.covIdxSym_eq`
* `Rpwa.FitData.invBase_eq`
* `Rpwa.FitData.invBase_lt`
* `Rpwa.Angles.angle_count`
* `Rpwa.Angles.comboFills_all`

## propext

* `Rpwa.Acc.compensated_sum_exact`
* `Rpwa.Acc.cascaded_sum_drops_initial`
* `Rpwa.FileUtils.extension_without_dot`
* `Rpwa.FileUtils.changeFileExtension_empty`
* `Rpwa.Particle.addEntry_flag`
* `Rpwa.EventMomenta.revert_restores`
* `Rpwa.EventMomenta.mixed_indices_unsafe`
* `Rpwa.KeyFile.described_eq_iff`
* `Rpwa.KeyFile.described_stable`
* `Rpwa.KeyFile.S_ignored`
* `Rpwa.Arrays.plain_loses`
* `Rpwa.FitRead.ex_waves`
* `Rpwa.Angles.ex_fills`
