{
 "claims": [
  {
   "property": "C01",
   "status": "proved",
   "theorems": [
    "Rpwa.Spin.getSpinRange_exact",
    "Rpwa.Spin.getSpinRange_negative",
    "Rpwa.Spin.getSpinRangeIn_exact",
    "Rpwa.Spin.getSpinRangeIn_valid_iff",
    "Rpwa.Spin.spinStatesCanCouple_iff",
    "Rpwa.Spin.spinAndProjAreCompatible_iff"
   ],
   "note": ""
  },
  {
   "property": "C02",
   "status": "proved",
   "theorems": [
    "Rpwa.Spin.jpcIsExotic_iff",
    "Rpwa.Spin.jpcIsExotic_undefined",
    "Rpwa.Spin.igjpIsExotic_iff",
    "Rpwa.Spin.igjpIsExotic_undefined"
   ],
   "note": ""
  },
  {
   "property": "C03",
   "status": "proved",
   "theorems": [
    "Rpwa.Clebsch.request_after_any_history",
    "Rpwa.Clebsch.cache_cells_distinct"
   ],
   "note": ""
  },
  {
   "property": "C04",
   "status": "proved",
   "theorems": [
    "Rpwa.Clebsch.selection_rules",
    "Rpwa.Clebsch.compute_eq"
   ],
   "note": ""
  },
  {
   "property": "C05",
   "status": "partial",
   "theorems": [
    "Rpwa.DFunction.history_independent_partial",
    "Rpwa.DFunction.value_with_cache_off",
    "Rpwa.DFunction.illegal_arguments_terminate",
    "Rpwa.DFunction.not_historyIndependent_cache_switch",
    "Rpwa.DFunction.not_historyIndependent",
    "Rpwa.DFunction.inconsistent_request_poisons_cache"
   ],
   "note": "False in full: toggling the cache off and on doubles the sum (bug, refuted by not_historyIndependent*). Proved for histories without a switch."
  },
  {
   "property": "C06",
   "status": "proved",
   "theorems": [
    "Rpwa.Factorial.factorial_after_any_history"
   ],
   "note": ""
  },
  {
   "property": "C07",
   "status": "partial",
   "theorems": [
    "Rpwa.Acc.compensated_sum_exact",
    "Rpwa.Acc.cascaded_sum_exact_partial",
    "Rpwa.Acc.cascaded_sum_no_samples",
    "Rpwa.Acc.cascaded_sum_overflow_ub",
    "Rpwa.Acc.not_cascadedExact",
    "Rpwa.Acc.cascaded_sum_drops_initial"
   ],
   "note": "The cascaded accumulator writes out of bounds when more samples than declared are added (bug, refuted); exact otherwise."
  },
  {
   "property": "C08",
   "status": "proved",
   "theorems": [
    "Rpwa.ArrayUtils.offset_of_indices",
    "Rpwa.ArrayUtils.indices_of_offset"
   ],
   "note": ""
  },
  {
   "property": "C09",
   "status": "proved",
   "theorems": [
    "Rpwa.FileUtils.directory_fileName",
    "Rpwa.FileUtils.stem_extension",
    "Rpwa.FileUtils.extension_without_dot",
    "Rpwa.FileUtils.changeFileExtension_spec",
    "Rpwa.FileUtils.changeFileExtension_empty",
    "Rpwa.FileUtils.changeFileExtension_not_idempotent"
   ],
   "note": ""
  },
  {
   "property": "C10",
   "status": "partial",
   "theorems": [
    "Rpwa.Fraction.program_value",
    "Rpwa.Fraction.sqrt_flag",
    "Rpwa.Fraction.invert_flag",
    "Rpwa.Fraction.greater_iff",
    "Rpwa.Fraction.sumSignedRoots_spec",
    "Rpwa.Fraction.equal_sound",
    "Rpwa.Fraction.equal_iff_partial",
    "Rpwa.Fraction.not_equal_complete",
    "Rpwa.Fraction.dval_sqrt_poisons",
    "Rpwa.Fraction.infinity_flip",
    "Rpwa.Fraction.infinity_add",
    "Rpwa.Fraction.am0ToJ_value",
    "Rpwa.Fraction.cSubEll_value",
    "Rpwa.Fraction.cm0SubEll2_value",
    "Rpwa.Fraction.isPrimeNumber_iff",
    "Rpwa.Fraction.isPrimeNumber_one",
    "Rpwa.Fraction.primeTable"
   ],
   "note": "Values proved for all programs; equality is complete only without operator*= (refuted in general: not_equal_complete)."
  },
  {
   "property": "C11",
   "status": "proved",
   "theorems": [
    "Rpwa.Particle.name_roundtrip_iff",
    "Rpwa.Particle.name_injective",
    "Rpwa.Particle.name_not_injective"
   ],
   "note": "Exact characterisation (iff) of the well-formed names."
  },
  {
   "property": "C12",
   "status": "proved",
   "theorems": [
    "Rpwa.Particle.antiPart_conjugate",
    "Rpwa.Particle.antiPart_involution",
    "Rpwa.Particle.antiPart_quantum_numbers",
    "Rpwa.Particle.antiPart_not_involution_unclean",
    "Rpwa.Particle.antiDaughters_involution"
   ],
   "note": "For records as produced by the setters with bare names not ending in a charge character; the unclean case is refuted by a witness."
  },
  {
   "property": "C13",
   "status": "proved",
   "theorems": [
    "Rpwa.Particle.lookup_after_insertions",
    "Rpwa.Particle.addEntry_flag",
    "Rpwa.Particle.addEntry_wf",
    "Rpwa.Particle.entriesMatching_spec",
    "Rpwa.Particle.mem_entriesMatching",
    "Rpwa.Particle.decayMode_eq_not_transitive"
   ],
   "note": ""
  },
  {
   "property": "C14",
   "status": "partial",
   "theorems": [
    "Rpwa.Particle.read_fileLine_partial",
    "Rpwa.Particle.not_dump_read",
    "Rpwa.Particle.malformed_line_ub",
    "Rpwa.Particle.dump_fractional_width"
   ],
   "note": "False of the code: dump writes 14 columns, read expects 13 (not_dump_read). Proved: the documented 13-column line is read back."
  },
  {
   "property": "C15",
   "status": "proved",
   "theorems": [
    "Rpwa.EventMomenta.init_succeeds_iff",
    "Rpwa.EventMomenta.index_map_bijective",
    "Rpwa.EventMomenta.momenta_match_names",
    "Rpwa.EventMomenta.order_irrelevant",
    "Rpwa.EventMomenta.revert_restores",
    "Rpwa.EventMomenta.revert_permutes",
    "Rpwa.EventMomenta.mixed_indices_unsafe"
   ],
   "note": "For index assignments accepted by the topology check; mixed assignments are refused by the check (witness that they would be unsafe)."
  },
  {
   "property": "C16",
   "status": "proved",
   "theorems": [
    "Rpwa.Sym.bose_terms",
    "Rpwa.Sym.bose_normalised",
    "Rpwa.Sym.amplitude_exchange_invariant",
    "Rpwa.Sym.isobarIsAffected_iff"
   ],
   "note": "Including std::next_permutation; consequence: the symmetrised amplitude is invariant under exchange of identical particles for every amplitude function."
  },
  {
   "property": "C46",
   "status": "partial",
   "theorems": [
    "Rpwa.Sym.allGroupPermutations_spec",
    "Rpwa.Sym.isospin_kept_sound",
    "Rpwa.Sym.isospin_first_kept_partial",
    "Rpwa.Sym.groupsByJPI_partition",
    "Rpwa.Sym.isospin_misses_assignment"
   ],
   "note": "Completeness is false of the code (isospin_misses_assignment)."
  },
  {
   "property": "C18",
   "status": "proved",
   "theorems": [
    "Rpwa.Vertex.checkConsistency_iff",
    "Rpwa.Vertex.checkConsistency_isospin",
    "Rpwa.Vertex.g_eigenstate_to_non_eigenstates_rejected"
   ],
   "note": "Exact characterisation by the conservation laws; consequence: decays of G-parity eigenstates into kaon pairs are always rejected."
  },
  {
   "property": "C17",
   "status": "proved",
   "theorems": [
    "Rpwa.WaveSet.generated_waves",
    "Rpwa.WaveSet.generation_ends",
    "Rpwa.WaveSet.bose_removal",
    "Rpwa.WaveSet.postProcess_spec",
    "Rpwa.WaveSet.cgTest_exact",
    "Rpwa.WaveSet.halfinteger_negative_M",
    "Rpwa.WaveSet.deprecated_name_duplicates",
    "Rpwa.WaveSet.bose_tags_once"
   ],
   "note": "Soundness, completeness, no duplicates and normal end, by induction over the template tree. Findings: M=-1/2 for half-integer spins in the reflectivity basis, duplicates with deprecated mass-dependence names."
  },
  {
   "property": "C19",
   "status": "proved",
   "theorems": [
    "Rpwa.Integral.element_is_event_average",
    "Rpwa.Integral.element_hermitian",
    "Rpwa.Integral.element_psd",
    "Rpwa.Integral.refused_integrate_changes_elements"
   ],
   "note": "For every history of setWaveNames/addEvent/integrate/+=/renormalize; finding: a refused integrate changes the event number."
  },
  {
   "property": "C20",
   "status": "partial",
   "theorems": [
    "Rpwa.Integral.addAssign_iff",
    "Rpwa.Integral.addAssign_by_name",
    "Rpwa.Integral.eq_iff",
    "Rpwa.Integral.merge_commutes",
    "Rpwa.Integral.merge_associative",
    "Rpwa.Integral.merge_descriptions_partial",
    "Rpwa.Integral.merge_swaps_descriptions"
   ],
   "note": "Entries are matched by name (proved in full); descriptions are copied by position, so that part of the claim is false of the code (merge_swaps_descriptions)."
  },
  {
   "property": "C21",
   "status": "partial",
   "theorems": [
    "Rpwa.Integral.renormalize_keeps_elements",
    "Rpwa.Integral.mulAssign_spec",
    "Rpwa.Integral.divAssign_spec",
    "Rpwa.Integral.mulAssign_keeps_elements_partial",
    "Rpwa.Integral.mulAssign_changes_elements"
   ],
   "note": "renormalize in full; *= and /= truncate the event number, exact criterion proved and counterexample given."
  },
  {
   "property": "C22",
   "status": "partial",
   "theorems": [
    "Rpwa.Integral.ascii_roundtrip_partial",
    "Rpwa.Integral.ascii_roundtrip_fails"
   ],
   "note": "False of the code for every stream other than standard output (ascii_roundtrip_fails); proved for standard output."
  },
  {
   "property": "C23",
   "status": "proved",
   "theorems": [
    "Rpwa.Lik.buildParDataStruct_returns",
    "Rpwa.Lik.parameters_enumerate_components",
    "Rpwa.Lik.copyTo_copyFrom",
    "Rpwa.Lik.copyFrom_copyTo",
    "Rpwa.Lik.buildProdAmpArrays_agree",
    "Rpwa.Lik.parName_injective"
   ],
   "note": "All ranks, wave lists and thresholds, by induction over the slot list."
  },
  {
   "property": "C24",
   "status": "proved",
   "theorems": [
    "Rpwa.Lik.gradient_is_derivative",
    "Rpwa.Lik.fdf_eq",
    "Rpwa.Lik.fdf_is_derivative",
    "Rpwa.Lik.cauchy_gradient_divides_by_zero"
   ],
   "note": "HasDerivAt over the reals, for all ranks, wave sets, data and priors; where the code divides by zero (half-Cauchy prior with a zero amplitude) the hypothesis excludes it and the finding is recorded."
  },
  {
   "property": "C25",
   "status": "proved",
   "theorems": [
    "Rpwa.Lik.hessian_is_second_derivative",
    "Rpwa.Lik.hessian_is_second_derivative_of_likelihood",
    "Rpwa.Lik.hessian_fixed_zero",
    "Rpwa.Lik.hessian_symmetric"
   ],
   "note": "Assembly loops of the matrix and formulas, for all ranks and wave sets; half-Cauchy prior at zero amplitude excluded (division by zero in the code)."
  },
  {
   "property": "C26",
   "status": "partial",
   "theorems": [
    "Rpwa.Lik.doDerivative_fresh_partial",
    "Rpwa.Lik.doDerivative_hit",
    "Rpwa.Lik.stale_after_setPriorType"
   ],
   "note": "Proved for every history without a call of a setter in between; false of the code after setPriorType (stale_after_setPriorType)."
  },
  {
   "property": "C27",
   "status": "proved",
   "theorems": [
    "Rpwa.Lik.correctParamSigns_returns",
    "Rpwa.Lik.correctParamSigns_out_of_range",
    "Rpwa.Lik.correctParamSigns_same_likelihood",
    "Rpwa.Lik.correctParamSigns_convention",
    "Rpwa.Lik.correctParamSigns_idempotent",
    "Rpwa.Lik.correctParamSigns_keeps_phases"
   ],
   "note": "All ranks, wave sets and arrays; undefined behaviour when the rank exceeds the number of waves is characterised exactly."
  },
  {
   "property": "C28",
   "status": "partial",
   "theorems": [
    "Rpwa.Lik.covariance_partial",
    "Rpwa.Lik.covariance_after_init",
    "Rpwa.Lik.covariance_fails_after_empty_wave",
    "Rpwa.Lik.eigenvectors_partial"
   ],
   "note": "Proved whenever the counter of fixed parameters is right (always after init); false after an empty wave was fixed while loading."
  },
  {
   "property": "C29",
   "status": "proved",
   "theorems": [
    "Rpwa.Lik.normalized_likelihood",
    "Rpwa.Lik.normalized_counterpart",
    "Rpwa.Lik.normalized_integrals",
    "Rpwa.Lik.waveNorm_pos"
   ],
   "note": "Flat prior (with the half-Cauchy prior the two are different models); inverse and square root are exact."
  },
  {
   "property": "C30",
   "status": "partial",
   "theorems": [
    "Rpwa.Fit.spinDensityMatrixElem_eq_partial",
    "Rpwa.Fit.spinDensityMatrixElem_hermitian",
    "Rpwa.Fit.spinDensityMatrix_posSemidef",
    "Rpwa.Fit.intensity_eq",
    "Rpwa.Fit.intensityOf_eq",
    "Rpwa.Fit.intensity_nonneg",
    "Rpwa.Fit.intensityOf_nonneg",
    "Rpwa.Fit.literalRx_rxLit",
    "Rpwa.Fit.flat_wave_counts_flat_isobars"
   ],
   "note": "All ranks and labelled amplitude sets in which no wave name is part of another wave's amplitude name; false of the code for the wave 'flat' next to waves with flat isobars (flat_wave_counts_flat_isobars). PCRE enters through LiteralRx."
  },
  {
   "property": "C31",
   "status": "partial",
   "theorems": [
    "Rpwa.Fit.spinDensityMatrixElemCov_propagates",
    "Rpwa.Fit.overlapErr_propagates",
    "Rpwa.Fit.intensityErr_propagates",
    "Rpwa.Fit.phaseErr_propagates",
    "Rpwa.Fit.phaseErr_propagates_relative",
    "Rpwa.Fit.coherenceErr_propagates_partial",
    "Rpwa.Fit.intensityErrOf_propagates",
    "Rpwa.Fit.coherenceErr_too_small",
    "Rpwa.Fit.flat_isobar_integral"
   ],
   "note": "Every error is sqrt(D C D^T) with D the gradient (HasDerivAt) of the reported value; the coherence error of the code is that divided by the number of events amplitudes are normalized to."
  },
  {
   "property": "C32",
   "status": "partial",
   "theorems": [
    "Rpwa.Fit.coherence_mem_unit_partial",
    "Rpwa.Fit.coherence_comm",
    "Rpwa.Fit.coherence_rank_one",
    "Rpwa.Fit.no_interference",
    "Rpwa.Fit.phase_comm"
   ],
   "note": "For labelled fit results (see C30); the phase of 180 degrees is not antisymmetric."
  },
  {
   "property": "C33",
   "status": "partial",
   "theorems": [
    "Rpwa.Fit.refill_eq_iff",
    "Rpwa.Fit.refill_same_names_partial",
    "Rpwa.Fit.reset_fill",
    "Rpwa.Fit.fillFrom_copy",
    "Rpwa.Fit.fill_fresh_waveNames",
    "Rpwa.Fit.fill_fresh_indexMap",
    "Rpwa.Fit.fill_labelled",
    "Rpwa.Fit.refill_stale",
    "Rpwa.Fit.fillFrom_select",
    "Rpwa.Fit.fill_fields"
   ],
   "note": "Exact condition under which refilling is clean; false otherwise (refill_stale)."
  },
  {
   "property": "C47",
   "status": "proved",
   "theorems": [
    "Rpwa.Fit.waveName_identifies",
    "Rpwa.Fit.waveName_not_in_other",
    "Rpwa.Fit.waveName_waveId",
    "Rpwa.Fit.labelled_of_generated",
    "Rpwa.Fit.flat_in_waveName",
    "Rpwa.Fit.waveName_needs_parity"
   ],
   "note": "All decay trees; numbers printed by streams are taken as printed (six digits). labelled_of_generated discharges the name assumption of C30-C32 for generated names."
  },
  {
   "property": "C34",
   "status": "proved",
   "theorems": [
    "Rpwa.Best.getFitResults_spec",
    "Rpwa.Best.first_is_best",
    "Rpwa.Best.nothing_lost"
   ],
   "note": "All option combinations; likelihood values are real numbers (no NaN); fill is taken as copy (see C33)."
  },
  {
   "property": "C35",
   "status": "partial",
   "theorems": [
    "Rpwa.CMat.beq_iff_partial",
    "Rpwa.CMat.equalToPrecision_iff_partial",
    "Rpwa.CMat.beq_wide_ub",
    "Rpwa.CMat.beq_tall_ignores_last",
    "Rpwa.CMat.t_spec",
    "Rpwa.CMat.mul_spec",
    "Rpwa.CMat.add_sub_spec",
    "Rpwa.CMat.dagger_spec",
    "Rpwa.CMat.dagger_adjoint_partial",
    "Rpwa.CMat.dagger_not_adjoint",
    "Rpwa.CMat.determinant_spec",
    "Rpwa.CMat.store_read",
    "Rpwa.CMat.store_read_empty",
    "Rpwa.CMat.no_double_delete_partial",
    "Rpwa.CMat.double_delete_after_store"
   ],
   "note": "Comparison holds for square matrices (loop bounds are swapped in the code: undefined behaviour for wide, incomplete for tall ones); dagger() only conjugates; the determinant assumes the specification of uBLAS lu_factorize (LuSpec)."
  },
  {
   "property": "C36",
   "status": "partial",
   "theorems": [
    "Rpwa.PSpace.cartesian_spherical_partial",
    "Rpwa.PSpace.cartesian_spherical_approx",
    "Rpwa.PSpace.cartesian_spherical_loses",
    "Rpwa.PSpace.spherical_cartesian_partial",
    "Rpwa.PSpace.spherePoint_unit",
    "Rpwa.PSpace.setAngles_spec_partial",
    "Rpwa.PSpace.setAngles_not_unit",
    "Rpwa.PSpace.setAngles_wrong_rho",
    "Rpwa.PSpace.pickUniformAngles_spec",
    "Rpwa.PSpace.pickUniformAngles_consistent",
    "Rpwa.PSpace.calculateRho_spec",
    "Rpwa.PSpace.dRho_derivative",
    "Rpwa.PSpace.dR_derivative_partial",
    "Rpwa.PSpace.dR_not_derivative",
    "Rpwa.PSpace.sphere_area",
    "Rpwa.PSpace.getDS_sq",
    "Rpwa.PSpace.getDAHat_isotropic"
   ],
   "note": "setAngles never sets the last coordinate (setAngles_not_unit, setAngles_wrong_rho); getDRDPhi is twice the derivative of getR; the 1e-10 tolerance of the coordinate conversion loses small coordinates (bounded by cartesian_spherical_approx)."
  },
  {
   "property": "C37",
   "status": "partial",
   "theorems": [
    "Rpwa.Storage.written_hash_valid",
    "Rpwa.Storage.written_content",
    "Rpwa.Storage.recalculateHash_spec",
    "Rpwa.Storage.hash_identifies_events",
    "Rpwa.Storage.layout_not_hashed",
    "Rpwa.Storage.duplicate_names_break_hash",
    "Rpwa.Storage.amp_written_hash_valid",
    "Rpwa.Storage.amp_written_content",
    "Rpwa.Storage.hash_identifies_amplitudes_partial"
   ],
   "note": "All call histories of the writers. False of the code when an additional variable name is used twice (duplicate_names_break_hash); layout (number of particles per block) is not hashed; the amplitude hash identifies the amplitudes for a given key file. MD5 is a function, collisions excluded by hypothesis where identification is claimed."
  },
  {
   "property": "C38",
   "status": "proved",
   "theorems": [
    "Rpwa.Storage.merge_auxString",
    "Rpwa.Storage.merge_empty",
    "Rpwa.Storage.merge_refused_iff",
    "Rpwa.Storage.merge_concat",
    "Rpwa.Storage.merge_same_names",
    "Rpwa.Storage.merge_again",
    "Rpwa.Storage.merge_drops_later_variables",
    "Rpwa.Storage.merge_loses_type",
    "Rpwa.Storage.merge_ignores_later_bins"
   ],
   "note": "Exact refusal criterion and content for all lists of readable files with distinct variable names of the first file; findings: later extra variables and extra bins are dropped, the event type is lost."
  },
  {
   "property": "C39",
   "status": "partial",
   "theorems": [
    "Rpwa.Otf.useEvent_iff",
    "Rpwa.Otf.inBoundaries_iff",
    "Rpwa.Otf.eventIndices_spec",
    "Rpwa.Otf.grid_partition",
    "Rpwa.Otf.binned_sample_partition",
    "Rpwa.Otf.binned_integrals_add",
    "Rpwa.Otf.missing_variable_is_zero"
   ],
   "note": "Partition of every sample by every grid of adjacent half-open bins, for the likelihood and the integral; false of the likelihood when an event file lacks a binning variable (taken as 0: missing_variable_is_zero)."
  },
  {
   "property": "C48",
   "status": "partial",
   "theorems": [
    "Rpwa.Otf.addAmplitude_selected",
    "Rpwa.Otf.waves_aligned",
    "Rpwa.Otf.setOnTheFlyBinning_registers",
    "Rpwa.Otf.binned_amplitudes",
    "Rpwa.Otf.unknown_file_misaligns"
   ],
   "note": "Holds when every amplitude file belongs to a registered event file; otherwise the check is dead code and the amplitudes are misaligned (unknown_file_misaligns)."
  },
  {
   "property": "C40",
   "status": "partial",
   "theorems": [
    "Rpwa.MultiBin.lt_iff",
    "Rpwa.MultiBin.lt_irrefl'",
    "Rpwa.MultiBin.lt_trans'",
    "Rpwa.MultiBin.lt_total",
    "Rpwa.MultiBin.le_antisymm'",
    "Rpwa.MultiBin.le_trans'",
    "Rpwa.MultiBin.operators_consistent_partial",
    "Rpwa.MultiBin.gt_both_ways",
    "Rpwa.MultiBin.gt_other_variables",
    "Rpwa.MultiBin.overlap_iff",
    "Rpwa.MultiBin.overlap_strict_iff",
    "Rpwa.MultiBin.adjacent_bins_overlap",
    "Rpwa.MultiBin.disjoint_bins_ordered",
    "Rpwa.MultiBin.contains_iff",
    "Rpwa.MultiBin.inBin_iff",
    "Rpwa.MultiBin.fromUniqueStr_uniqueStr_partial",
    "Rpwa.MultiBin.uniqueStr_inj_partial",
    "Rpwa.MultiBin.uniqueStr_collision",
    "Rpwa.MultiBin.uniqueStr_lost"
   ],
   "note": "Bins sharing no event are strictly ordered and all operators agree; false for bins with equal centres or other variables (gt_both_ways, gt_other_variables). The text form is injective for names without ',' and '=' (collision otherwise)."
  },
  {
   "property": "C41",
   "status": "partial",
   "theorems": [
    "Rpwa.MultiBin.mem_eventFileIds",
    "Rpwa.MultiBin.eventFileIds_complete",
    "Rpwa.MultiBin.eventFileIds_sorted",
    "Rpwa.MultiBin.eventFileIds_events",
    "Rpwa.MultiBin.amplitudeFileName_inj",
    "Rpwa.MultiBin.amplitudeFilePath_inj_partial",
    "Rpwa.MultiBin.amplitudeFilePath_unique",
    "Rpwa.MultiBin.tag_collision",
    "Rpwa.MultiBin.integralFileName_inj",
    "Rpwa.MultiBin.integralFileOf_isSome",
    "Rpwa.MultiBin.integralFileOf_inj",
    "Rpwa.MultiBin.fallbackBins_spec",
    "Rpwa.MultiBin.filesInBin_spec"
   ],
   "note": "Completeness for all files whose events are in the recorded ranges; file names are unique except when a merge tag equals the name of another wave (tag_collision) or files are given explicitly."
  },
  {
   "property": "C49",
   "status": "partial",
   "theorems": [
    "Rpwa.MultiBin.readBinning_grid",
    "Rpwa.MultiBin.readBinning_list",
    "Rpwa.MultiBin.expandAxis_range",
    "Rpwa.MultiBin.readBinning_zero_edge",
    "Rpwa.MultiBin.readBinning_single_edge"
   ],
   "note": "All grids of edges; a range (low, high, n) with an edge at zero yields no bins (readBinning_zero_edge). Rounding to 14 digits is a parameter."
  },
  {
   "property": "C42",
   "status": "partial",
   "theorems": [
    "Rpwa.ResFit.chiSquare_history",
    "Rpwa.ResFit.logLikelihood_history",
    "Rpwa.ResFit.chiSquare_independent",
    "Rpwa.ResFit.productionAmplitude_offCentre",
    "Rpwa.ResFit.Ex.shared_cache"
   ],
   "note": "Proved for every model that can be read and every history of one function object per thread; false for several function objects in one thread, whose cache is shared (Ex.shared_cache). Evaluations below threshold that throw are outside of the model."
  },
  {
   "property": "C43",
   "status": "partial",
   "theorems": [
    "Rpwa.ResFit.layout_nodup",
    "Rpwa.ResFit.import_count",
    "Rpwa.ResFit.import_at",
    "Rpwa.ResFit.import_injective",
    "Rpwa.ResFit.import_frame",
    "Rpwa.ResFit.used_in_layout",
    "Rpwa.ResFit.shared_couplings",
    "Rpwa.ResFit.own_couplings",
    "Rpwa.ResFit.shape_in_layout",
    "Rpwa.ResFit.startValues_layout",
    "Rpwa.ResFit.startValues_import",
    "Rpwa.ResFit.startValues_length",
    "Rpwa.ResFit.anchor_unique",
    "Rpwa.ResFit.maps_no_duplicates",
    "Rpwa.ResFit.Ex.no_duplicates",
    "Rpwa.ResFit.Ex.coupling_lost",
    "Rpwa.ResFit.Ex.coupling_abort"
   ],
   "note": "All models; with branchings the waves of a component with equal quantum numbers must be used in the same bins, otherwise a coupling is lost (Ex.coupling_lost) or the program aborts."
  },
  {
   "property": "C50",
   "status": "partial",
   "theorems": [
    "Rpwa.ResFit.waveLimits_spec",
    "Rpwa.ResFit.pairLimits_spec",
    "Rpwa.ResFit.waveLimits_ignored",
    "Rpwa.ResFit.nrDataPoints_spec",
    "Rpwa.ResFit.Ex.dataPoints_gap"
   ],
   "note": "Upper limits below the first bin centre are ignored (waveLimits_ignored); the count wraps around for waves whose ranges are separated by a gap (Ex.dataPoints_gap)."
  },
  {
   "property": "C44",
   "status": "proved",
   "theorems": [
    "Rpwa.Gen.xSystem_spec",
    "Rpwa.Gen.xSystem_complete",
    "Rpwa.Gen.xSystem_surjective",
    "Rpwa.Gen.tPrime_spec",
    "Rpwa.Gen.tPrime_of_generated",
    "Rpwa.Gen.xSystem_too_large",
    "Rpwa.Gen.exists_too_large"
   ],
   "note": "All physical beams, masses, t' and azimuths over the reals; a t' beyond the kinematic limit gives NaN components (xSystem_too_large). Four-vector functions of ROOT are trusted; a system exactly at rest with t' > 0 divides by zero."
  },
  {
   "property": "C51",
   "status": "proved",
   "theorems": [
    "Rpwa.Gen.kinematics_spec",
    "Rpwa.Gen.kinematics_impossible",
    "Rpwa.Gen.kinematics_complete",
    "Rpwa.Gen.pickMasses_valid",
    "Rpwa.Gen.generateDecay_spec",
    "Rpwa.Gen.generateDecay_below"
   ],
   "note": "All numbers of particles, over the reals. Completeness for the BLOCK algorithm and decays whose subsystems have mass. ROOT four-vector functions and random numbers strictly between 0 and 1 are trusted."
  },
  {
   "property": "C52",
   "status": "partial",
   "theorems": [
    "Rpwa.Gen.pickAngles_cos",
    "Rpwa.Gen.pickAngles_phi",
    "Rpwa.Gen.weight_chung",
    "Rpwa.Gen.weight_chung_nonneg",
    "Rpwa.Gen.weight_genbod",
    "Rpwa.Gen.weight_genbod_density",
    "Rpwa.Gen.weight_nuphaz",
    "Rpwa.Gen.norm_current",
    "Rpwa.Gen.norm_stale",
    "Rpwa.Gen.norm_stale_differs",
    "Rpwa.Gen.estimateMaxWeight_spec",
    "Rpwa.Gen.eventAccepted_spec",
    "Rpwa.Gen.eventAccepted_special"
   ],
   "note": "False of the code when setWeightType is called after setDecay: the old normalisation stays (norm_stale, norm_stale_differs). The density of the picked masses is stated (mixture of powers, order statistics), not derived from a measure on the random numbers."
  },
  {
   "property": "C45",
   "status": "partial",
   "theorems": [
    "Rpwa.Gen.weights_current_partial",
    "Rpwa.Gen.weights_first",
    "Rpwa.Gen.weights_stale",
    "Rpwa.Gen.findWeight_outside",
    "Rpwa.Gen.event_one_particle",
    "Rpwa.Gen.build_below",
    "Rpwa.Gen.event_spec",
    "Rpwa.Gen.accept_iff",
    "Rpwa.Gen.accept_all"
   ],
   "note": "False of the code when the final state is set twice: the weights of the first final state stay (weights_first, weights_stale). weights_current_partial: the configured final state was set once. event_spec: every event conserves energy and momentum. accept_all: if the mass range reaches the kinematic limit every try is accepted; findWeight_outside: a picked mass outside the slices reads past the map."
  },
  {
   "property": "C53",
   "status": "partial",
   "theorems": [
    "Rpwa.Amp.gj_unique",
    "Rpwa.Amp.gj_frame",
    "Rpwa.Amp.gj_beam_along_z",
    "Rpwa.Amp.gj_invariant",
    "Rpwa.Amp.gj_rotated",
    "Rpwa.Amp.gj_opposite",
    "Rpwa.Amp.gj_opposite_occurs",
    "Rpwa.Amp.gj_collinear",
    "Rpwa.Amp.hf_unique",
    "Rpwa.Amp.hf_frame",
    "Rpwa.Amp.hf_reflY",
    "Rpwa.Amp.hf_rotZ",
    "Rpwa.Amp.hf_along_z"
   ],
   "note": "Proved for all beams and X that are not collinear (and, for a beam along z, without further condition); false of the code if X flies exactly along the beam (gj_collinear: the beam ends up along y), if the boosted beam points exactly along -z in the intermediate frame (gj_opposite, gj_opposite_occurs), or if an isobar flies exactly along the z-axis of its parent's frame (hf_along_z)."
  },
  {
   "property": "C54",
   "status": "partial",
   "theorems": [
    "Rpwa.Amp.helicity_reflection",
    "Rpwa.Amp.canonical_reflection",
    "Rpwa.Amp.helicity_inversion",
    "Rpwa.Amp.canonical_inversion",
    "Rpwa.Amp.helicity_reflection_M",
    "Rpwa.Amp.canonical_reflection_M",
    "Rpwa.Amp.amplitude_same_frame",
    "Rpwa.Amp.amplitude_rotated",
    "Rpwa.Amp.amplitude_reflection_helicity",
    "Rpwa.Amp.amplitude_reflection_canonical",
    "Rpwa.Amp.amplitude_inversion_helicity",
    "Rpwa.Amp.amplitude_inversion_canonical",
    "Rpwa.Amp.intensity_reflection",
    "Rpwa.Amp.formalisms_agree",
    "Rpwa.Amp.scalar_amplitude"
   ],
   "note": "All decay trees with integer spins and spinless final state. Canonical formalism: every event with a massive X. Helicity formalism: no particle may fly exactly along the z-axis of its parent's frame (there the code picks an arbitrary azimuth). Rotations: both events must have a well-defined Gottfried-Jackson frame (C53). Clebsch-Gordan coefficients and d-functions enter with their specified values (C03, C05)."
  },
  {
   "property": "C55",
   "status": "proved",
   "theorems": [
    "Rpwa.Phys.decays_unique",
    "Rpwa.Phys.breakupMomentum_iff",
    "Rpwa.Phys.breakupMomentum_none",
    "Rpwa.Phys.breakupMomentum_event",
    "Rpwa.Phys.breakupMomentumComplex_spec",
    "Rpwa.Phys.barrierFactorSquared_spec",
    "Rpwa.Phys.barrierFactorSquared_other",
    "Rpwa.Phys.barrierFactorSquared_mono",
    "Rpwa.Phys.reflectivityFactor_spec",
    "Rpwa.Phys.threeBody_range",
    "Rpwa.Phys.dalitzKinematicBorder_spec",
    "Rpwa.Phys.dalitzKinematicBorder_beyond"
   ],
   "note": "Over the reals. Barrier factors are 0 for L > 7 although such decays exist (barrierFactorSquared_other); outside of the Dalitz plot the border function returns non-zero values instead of a marker (dalitzKinematicBorder_beyond)."
  },
  {
   "property": "C56",
   "status": "partial",
   "theorems": [
    "Rpwa.MassDep.breitWigner_spec",
    "Rpwa.MassDep.ves_sheet",
    "Rpwa.MassDep.ampVes_above",
    "Rpwa.MassDep.ampVes_below",
    "Rpwa.MassDep.relBW_spec",
    "Rpwa.MassDep.bw_spec",
    "Rpwa.MassDep.relBW_highL",
    "Rpwa.MassDep.constWidth_spec",
    "Rpwa.MassDep.rhoBW_spec",
    "Rpwa.MassDep.rhoBW_peak",
    "Rpwa.MassDep.f0980BW_spec",
    "Rpwa.MassDep.rhoBW_abort",
    "Rpwa.MassDep.flatte_spec",
    "Rpwa.MassDep.AMP.amp_spec",
    "Rpwa.MassDep.AMP.amp_above",
    "Rpwa.MassDep.AMP.amp_history",
    "Rpwa.MassDep.Glass.amp_spec",
    "Rpwa.MassDep.Glass.amp_unitary",
    "Rpwa.MassDep.Glass.amp_outside",
    "Rpwa.MassDep.Palano.amp_spec",
    "Rpwa.MassDep.Palano.amp_some",
    "Rpwa.MassDep.Palano.amp_outside",
    "Rpwa.MassDep.unit_circle",
    "Rpwa.MassDep.rhoPrime_spec",
    "Rpwa.MassDep.binned_add",
    "Rpwa.MassDep.binSum_spec"
   ],
   "note": "False of the code at isolated masses: where the matrix of the AMP parametrisation is singular, the inversion fails and the amplitude of the previous call is returned (AMP.amp_history). The VES variant is modelled, nothing is proved about it; relativistic Breit-Wigners with unstable daughters take the phase-space integral as a parameter (C58)."
  },
  {
   "property": "C57",
   "status": "partial",
   "theorems": [
    "Rpwa.KeyFile.particle_read",
    "Rpwa.KeyFile.glass_read",
    "Rpwa.KeyFile.X_massDep_written",
    "Rpwa.KeyFile.Ex.glass_created",
    "Rpwa.KeyFile.roundTrip",
    "Rpwa.KeyFile.roundTrip_exact",
    "Rpwa.KeyFile.described_eq_iff",
    "Rpwa.KeyFile.described_stable",
    "Rpwa.KeyFile.glass_aborts",
    "Rpwa.KeyFile.palano_lost",
    "Rpwa.KeyFile.settings_lost",
    "Rpwa.KeyFile.lepto_recoil_lost",
    "Rpwa.KeyFile.other_production",
    "Rpwa.KeyFile.S_ignored",
    "Rpwa.KeyFile.unnamed_isobar",
    "Rpwa.KeyFile.Ex.swapped"
   ],
   "note": "roundTrip holds for all charge-conserving chains of table particles with storable mass dependences: what comes back is described exactly, and equals the original iff isobars precede final-state particles and numbers survive the text format (described_eq_iff). False of the code otherwise: exchanged daughters (Ex.swapped), abort on reading generalised LASS isobars (glass_aborts), lost mass limit (palano_lost), lost spin projections and indices (settings_lost), ignored recoil (lepto_recoil_lost), unreadable files for other production vertices (other_production), undefined behaviour for unnamed isobars (unnamed_isobar). libconfig is trusted."
  },
  {
   "property": "C58",
   "status": "partial",
   "theorems": [
    "Rpwa.PSI.interpolate_spec",
    "Rpwa.PSI.interpolate_range",
    "Rpwa.PSI.interpolate_point",
    "Rpwa.PSI.addToTable_spec",
    "Rpwa.PSI.getInt0_spec",
    "Rpwa.PSI.amp_spec",
    "Rpwa.PSI.amp_peak",
    "Rpwa.PSI.amp_outside",
    "Rpwa.PSI.amp_threshold",
    "Rpwa.PSI.history_spec",
    "Rpwa.PSI.history_returns",
    "Rpwa.PSI.amp_repeat",
    "Rpwa.PSI.amp_first_differs",
    "Rpwa.PSI.fill_spec",
    "Rpwa.PSI.fill_forever",
    "Rpwa.PSI.fill_below",
    "Rpwa.PSI.file_orderly",
    "Rpwa.PSI.file_crash",
    "Rpwa.PSI.file_race",
    "Rpwa.PSI.file_torn",
    "Rpwa.PSI.file_lost"
   ],
   "note": "Proved for nominal masses in the table and programs that run one after the other without crashing while they write. False of the code: the first amplitude for a new nominal mass mixes the old table with the new estimate (amp_first_differs); NaN from the upper end of the table on and for a nominal mass at threshold (amp_outside, amp_threshold); upper bounds not above the threshold (fill_forever, fill_below); crash while the file is rewritten (file_crash); concurrent programs (file_race, file_torn, file_lost). Monte Carlo estimates enter as an arbitrary function of their number and the mass."
  },
  {
   "property": "C59",
   "status": "partial",
   "theorems": [
    "Rpwa.KeyFile.parseWaves_spec",
    "Rpwa.KeyFile.parseWaves_length",
    "Rpwa.KeyFile.no_bins",
    "Rpwa.KeyFile.bad_name",
    "Rpwa.KeyFile.integer_edge",
    "Rpwa.KeyFile.pipe_fits",
    "Rpwa.KeyFile.pipe_blocks"
   ],
   "note": "parseWaves_spec and parseWaves_length hold for all files whose expand groups are usable (Expandable). False of the code otherwise: missing bins are undefined behaviour (no_bins), bad or taken names and integer edges end in an uncaught exception (bad_name, integer_edge), and files whose text is larger than the capacity of a pipe block forever (pipe_blocks). libconfig and the number format (an idempotent function) are trusted."
  },
  {
   "property": "C60",
   "status": "partial",
   "theorems": [
    "Rpwa.PwaFit.pwaFit_result",
    "Rpwa.PwaFit.pwaFit_returns",
    "Rpwa.PwaFit.pwaFit_converged",
    "Rpwa.PwaFit.pwaFit_covariance_partial",
    "Rpwa.PwaFit.pwaFit_covariance_wrong",
    "Rpwa.PwaFit.pwaFit_hasHessian_always",
    "Rpwa.PwaFit.fill_matrices",
    "Rpwa.PwaFit.stationary_events",
    "Rpwa.PwaFit.stationary_events_example"
   ],
   "note": "The covariance matrix is false of the code: it is computed before the sign correction, so rows and columns of flipped parameters have the wrong sign (pwaFit_covariance_partial gives the exact relation, pwaFit_covariance_wrong a fit). The stored flag hasHessian is set whenever a matrix is stored, valid or not (pwaFit_hasHessian_always). Minuit is a parameter with the assumptions MinimizerOk; numbers are real."
  },
  {
   "property": "C61",
   "status": "partial",
   "theorems": [
    "Rpwa.PwaFit.startValues_spec",
    "Rpwa.PwaFit.startValues_fixed",
    "Rpwa.PwaFit.randomStart_bounds",
    "Rpwa.PwaFit.fitParameter_stored",
    "Rpwa.PwaFit.fitParameter_flat",
    "Rpwa.PwaFit.fitParameter_lost",
    "Rpwa.PwaFit.start_lost",
    "Rpwa.PwaFit.start_lost_example",
    "Rpwa.PwaFit.chooseStart_closest_partial",
    "Rpwa.PwaFit.chooseStart_first",
    "Rpwa.PwaFit.chooseStart_not_closest",
    "Rpwa.PwaFit.pwaFit_no_mass"
   ],
   "note": "False of the code: the imaginary part of a wave whose name contains 'flat' or 'RE' is not found (fitParameter_lost, start_lost); the search for the closest bin starts from mass 0, so that the first entry is used if all entries are farther away than mass 0 (chooseStart_first, chooseStart_not_closest); a bin without mass ends in an exception (pwaFit_no_mass)."
  },
  {
   "property": "C62",
   "status": "partial",
   "theorems": [
    "Rpwa.PwaFit.nloptFunc_value",
    "Rpwa.PwaFit.nloptFunc_gradient",
    "Rpwa.PwaFit.nlopt_buffer_overflow",
    "Rpwa.PwaFit.nlopt_buffer_overflow_example",
    "Rpwa.PwaFit.nloptStart_spec",
    "Rpwa.PwaFit.nlopt_empty_wave",
    "Rpwa.PwaFit.nlopt_no_start",
    "Rpwa.PwaFit.pwaNloptFit_result",
    "Rpwa.PwaFit.pwaNloptFit_returns",
    "Rpwa.PwaFit.pwaNloptFit_converged",
    "Rpwa.PwaFit.nlopt_stop_reason_ignored",
    "Rpwa.PwaFit.nlopt_maxeval_converged",
    "Rpwa.PwaFit.pwaNloptFit_covariance"
   ],
   "note": "False of the code: the static buffers keep the size of the first fit, later larger fits write out of bounds (nlopt_buffer_overflow); running out of evaluations counts as converged (nlopt_maxeval_converged); any wave with vanishing amplitudes makes every fit fail (nlopt_empty_wave). NLopt is a parameter with the assumption NloptOk."
  },
  {
   "property": "C63",
   "status": "partial",
   "theorems": [
    "Rpwa.Lik.SetupInput.setup_finished",
    "Rpwa.Lik.SetupInput.setup_order_irrelevant",
    "Rpwa.Lik.SetupInput.setup_finishInit",
    "Rpwa.Lik.SetupInput.setup_matches",
    "Rpwa.Lik.SetupInput.setup_returns",
    "Rpwa.Lik.exSetup_loads",
    "Rpwa.Lik.eval_needs_finish",
    "Rpwa.Lik.second_likelihood_acceptance",
    "Rpwa.Lik.finishInit_twice",
    "Rpwa.Lik.addAmplitude_after_finishInit",
    "Rpwa.Lik.finishInit_new",
    "Rpwa.Lik.init_twice",
    "Rpwa.Lik.duplicate_never_finishes"
   ],
   "note": "setup_finished holds for the protocol of initLikelihood on a new object. False of the code outside it although the calls report success: the acceptance matrix of the caller is changed, a second likelihood from the same objects gets acceptance 1 (second_likelihood_acceptance); repeated finishInit (finishInit_twice), waves added after finishInit (addAmplitude_after_finishInit), repeated init (init_twice), an object without waves can be finished (finishInit_new). Matrices without events (division by zero) are excluded."
  },
  {
   "property": "C64",
   "status": "proved",
   "theorems": [
    "Rpwa.Acc.compensated_sum_rounded",
    "Rpwa.Acc.cascaded_sum_rounded",
    "Rpwa.Acc.kahan_step",
    "Rpwa.Acc.kahan_inv",
    "Rpwa.Acc.sim_result"
   ],
   "note": "Standard model of floating-point arithmetic (relative error per operation), for real samples; overflow is not modelled and the compiler is assumed not to reassociate."
  },
  {
   "property": "C65",
   "status": "partial",
   "theorems": [
    "Rpwa.Wgt.weights_spec",
    "Rpwa.Wgt.weights_total",
    "Rpwa.Wgt.selectFit_spec",
    "Rpwa.Wgt.selectFit_none",
    "Rpwa.Wgt.selectFit_empty",
    "Rpwa.Wgt.openAmpFiles_spec",
    "Rpwa.Wgt.getIntensity_general",
    "Rpwa.Wgt.getIntensity_spec",
    "Rpwa.Wgt.getIntensity_refuses",
    "Rpwa.Wgt.step_flags",
    "Rpwa.Wgt.load_spec",
    "Rpwa.Wgt.intensity_eq_weight",
    "Rpwa.Wgt.higher_ranks_ignored",
    "Rpwa.Wgt.rank2_wrong",
    "Rpwa.Wgt.fill_lists",
    "Rpwa.Wgt.weights_single",
    "Rpwa.Wgt.getIntensity_momenta",
    "Rpwa.Wgt.getIntensityX_refuses",
    "Rpwa.Wgt.initX_names",
    "Rpwa.Wgt.init_names",
    "Rpwa.Wgt.ex_single"
   ],
   "note": "False of the code for modelIntensity with fits of rank 2 or more: it takes production amplitude number w for wave w, the other ranks are dropped (rank2_wrong); proved for rank 1 (getIntensity_spec). An empty tree of fit results is dereferenced (selectFit_empty). The weighting program is proved for all ranks."
  },
  {
   "property": "C66",
   "status": "partial",
   "theorems": [
    "Rpwa.Fit.varied_returns",
    "Rpwa.Fit.varied_mean",
    "Rpwa.Fit.varied_cov",
    "Rpwa.Fit.varied_cov_right_iff",
    "Rpwa.Fit.varied_total_variance",
    "Rpwa.Fit.varied_last_too_small",
    "Rpwa.Fit.varied_swapped_example",
    "Rpwa.Fit.varied_cov_wrong",
    "Rpwa.Fit.standard_exists"
   ],
   "note": "False of the code: it multiplies with U where C = U^T U, so the covariances are U U^T; they are those of the fit exactly if the covariance matrix is diagonal (varied_cov_right_iff, varied_cov_wrong). The mean and the unaffected components are right. ROOT's Cholesky decomposition is a parameter with its documented property."
  },
  {
   "property": "C67",
   "status": "partial",
   "theorems": [
    "Rpwa.Pick.initRanges_iff",
    "Rpwa.Pick.exp_init_iff",
    "Rpwa.Pick.exp_init_again",
    "Rpwa.Pick.poly_init_again",
    "Rpwa.Pick.uniform_init_again",
    "Rpwa.Pick.not_initialised",
    "Rpwa.Pick.init_ready",
    "Rpwa.Pick.paramsFor_ready",
    "Rpwa.Pick.paramsFor_between",
    "Rpwa.Pick.paramsFor_below",
    "Rpwa.Pick.paramsFor_above",
    "Rpwa.Pick.interpolate_spec",
    "Rpwa.Pick.pickT_single",
    "Rpwa.Pick.pickT_law",
    "Rpwa.Pick.pick_mass",
    "Rpwa.Pick.pickT_several",
    "Rpwa.Pick.newton_sound",
    "Rpwa.Pick.uniform_init_iff",
    "Rpwa.Pick.uniformPick_spec",
    "Rpwa.Pick.poly_init_iff",
    "Rpwa.Pick.polynomial_eq",
    "Rpwa.Pick.rejectLoop_iff",
    "Rpwa.Pick.poly_law",
    "Rpwa.Pick.paramsFor_first",
    "Rpwa.Pick.exPicker_first",
    "Rpwa.Pick.even_entry",
    "Rpwa.Pick.pickT_never",
    "Rpwa.Pick.never_example",
    "Rpwa.Pick.newton_negative",
    "Rpwa.Pick.poly_never",
    "Rpwa.Pick.stale_slopes",
    "Rpwa.Pick.exSettings_init",
    "Rpwa.Pick.exPicker_ready",
    "Rpwa.Pick.exPicker_params"
   ],
   "note": "False of the code in corners, each proved: the mass of the first of several mass points dereferences an iterator before begin() (paramsFor_first); a later entry with an unpaired last parameter is accepted and ends the program when used (even_entry); with several exponentials a minimum of t' more than 50 decay lengths from zero never gives an event (pickT_never) and a negative minimum gives t' = 0 (newton_negative); a slope that is not positive makes the polynomial picker loop for ever (poly_never); slopes of a failed initialisation stay and win (stale_slopes). Real arithmetic; the mass distribution of the polynomial picker (ROOT's TF1::GetRandom) is not modelled."
  },
  {
   "property": "C68",
   "status": "partial",
   "theorems": [
    "Rpwa.BeamGen.load_iff",
    "Rpwa.BeamGen.load_linked",
    "Rpwa.BeamGen.load_ub_iff",
    "Rpwa.BeamGen.run_sequential",
    "Rpwa.BeamGen.event_random",
    "Rpwa.BeamGen.random_uniform",
    "Rpwa.BeamGen.randomizeStart_range",
    "Rpwa.BeamGen.run_defined",
    "Rpwa.BeamGen.run_sequential_beam",
    "Rpwa.BeamGen.vertexZ_inTarget",
    "Rpwa.BeamGen.eventSimple_spec",
    "Rpwa.BeamGen.depth_law",
    "Rpwa.BeamGen.radius_law",
    "Rpwa.BeamGen.setXYZM_spec",
    "Rpwa.BeamGen.fromMomenta_exact",
    "Rpwa.BeamGen.fromMomenta_smeared",
    "Rpwa.BeamGen.truth_posterior",
    "Rpwa.BeamGen.fromMomentaCorrected_spec",
    "Rpwa.BeamGen.fromInclinations_spec",
    "Rpwa.BeamGen.smeared_mean",
    "Rpwa.BeamGen.smeared_cov",
    "Rpwa.BeamGen.depth_disabled",
    "Rpwa.BeamGen.load_missing",
    "Rpwa.BeamGen.load_noTree",
    "Rpwa.BeamGen.load_check_fails",
    "Rpwa.BeamGen.correction_after_load",
    "Rpwa.BeamGen.randomizeStart_no_file",
    "Rpwa.BeamGen.empty_tree",
    "Rpwa.BeamGen.takeZ_without_file",
    "Rpwa.BeamGen.takeZ_missing_file",
    "Rpwa.BeamGen.ex_run",
    "Rpwa.BeamGen.ex_eigen",
    "Rpwa.BeamGen.ex_standard"
   ],
   "note": "False of the code in corners, each proved: a tree with a missing branch deletes the tree twice (load_ub_iff); a file without tree after a loaded one leaves the mode and the next event dereferences null (load_noTree); a file that cannot be opened leaves the previous tree under the new name (load_missing); a failed check leaves the mode set (load_check_fails); the correction set after loading is not applied (correction_after_load); an empty tree repeats stale values (empty_tree); a random start without file dereferences null; interaction length 0, documented as disabled, puts every vertex on the front face (depth_disabled). The eigenvalue decomposition of ROOT is a parameter with its documented property."
  },
  {
   "property": "C69",
   "status": "partial",
   "theorems": [
    "Rpwa.Mgr.read_iff",
    "Rpwa.Mgr.read_false",
    "Rpwa.Mgr.describes_unique",
    "Rpwa.Mgr.protocol",
    "Rpwa.Mgr.plain_run",
    "Rpwa.Mgr.reach_inv",
    "Rpwa.Mgr.reach_defined",
    "Rpwa.Mgr.reach_event",
    "Rpwa.Mgr.step_gen",
    "Rpwa.Mgr.init_ready",
    "Rpwa.Mgr.init_shape",
    "Rpwa.Mgr.init_single",
    "Rpwa.Mgr.init_weights",
    "Rpwa.Mgr.event_good",
    "Rpwa.Mgr.event_shape",
    "Rpwa.Mgr.event_slices",
    "Rpwa.Mgr.override_shape",
    "Rpwa.Mgr.read_appends",
    "Rpwa.Mgr.read_twice",
    "Rpwa.Mgr.beam_file_sticky",
    "Rpwa.Mgr.beam_mode_kept",
    "Rpwa.Mgr.event_early",
    "Rpwa.Mgr.randomize_undefined",
    "Rpwa.Mgr.after_failure",
    "Rpwa.Mgr.override_too_late",
    "Rpwa.Mgr.integer_position",
    "Rpwa.Mgr.ex_describes",
    "Rpwa.Mgr.ex_runs",
    "Rpwa.Mgr.ex_failure"
   ],
   "note": "False of the code in corners, each proved: a second file appends its final state to the first (read_appends, read_twice); the beam file of the first read wins over later files (beam_file_sticky) and a later file without beam package leaves it on (beam_mode_kept); an event before set-up and a random start without beam file dereference null (event_early, randomize_undefined); after a failed read the old file still counts as read, and the picker function is lost (after_failure, ex_failure); a mass range set after set-up may read outside of the weight slices (override_too_late); integers in the target position pass the check and end the program (integer_position). Real arithmetic; libconfig is modelled by typed groups."
  },
  {
   "property": "C70",
   "status": "proved",
   "theorems": [
    "Rpwa.Dec.accepted_is_tree",
    "Rpwa.Dec.tree_is_accepted",
    "Rpwa.Dec.accepted_iff",
    "Rpwa.Dec.momenta_add_up",
    "Rpwa.Dec.dfs_spec",
    "Rpwa.Dec.tree_of_ctx",
    "Rpwa.Dec.shared_accepted",
    "Rpwa.Dec.ex_input",
    "Rpwa.Dec.ex_tree",
    "Rpwa.Dec.ex_good",
    "Rpwa.Dec.ex_accepted"
   ],
   "note": "Proved both ways for all graphs in which no particle object comes out of two vertices; without this condition the check accepts topologies that are no trees, and X gets a momentum counted twice (shared_accepted)."
  },
  {
   "property": "C71",
   "status": "partial",
   "theorems": [
    "Rpwa.Dec.clone_is_copy",
    "Rpwa.Dec.clone_independent",
    "Rpwa.Dec.clone_spec",
    "Rpwa.Dec.good_made",
    "Rpwa.Dec.ex_pointers",
    "Rpwa.Dec.ex_clone",
    "Rpwa.Dec.clone_fs_broken"
   ],
   "note": "Proved for clones without final-state particles. False of the code for clones with final-state particles: the list of final-state particles of the clone keeps the objects of the original, which are no longer in the graph, and the clone does not pass the check (clone_fs_broken): cloneEdge asks whether the old particle is a final-state particle after it has been replaced in the graph."
  },
  {
   "property": "C72",
   "status": "proved",
   "theorems": [
    "Rpwa.ResFit.dynamic_spec",
    "Rpwa.ResFit.dynamic_at",
    "Rpwa.ResFit.dynamic_below",
    "Rpwa.ResFit.dynamic_im",
    "Rpwa.ResFit.dynamic_stops",
    "Rpwa.ResFit.phaseSpace_exists",
    "Rpwa.ResFit.phaseSpace_mono",
    "Rpwa.ResFit.bw_unitary",
    "Rpwa.ResFit.bw_at",
    "Rpwa.ResFit.bw_circle",
    "Rpwa.ResFit.fixed_spec",
    "Rpwa.ResFit.integral_spec",
    "Rpwa.ResFit.maxMass_spec",
    "Rpwa.ResFit.exponential_spec",
    "Rpwa.ResFit.exponential_bounds",
    "Rpwa.ResFit.exponential_jump",
    "Rpwa.ResFit.tPrime_spec",
    "Rpwa.ResFit.exponentialIntegral_spec",
    "Rpwa.ResFit.tPrimeIntegral_spec",
    "Rpwa.ResFit.constant_spec",
    "Rpwa.ResFit.valueO_value",
    "Rpwa.ResFit.ex_dynamic",
    "Rpwa.ResFit.ex_stops",
    "Rpwa.ResFit.ex_exponential"
   ],
   "note": "All modes, masses and parameters, orbital angular momenta up to 7 (others have no barrier factor). A nominal mass at or below the threshold of an open mode gives no value (dynamic_stops). Interpolations of phase-space integrals are arbitrary functions."
  },
  {
   "property": "C73",
   "status": "proved",
   "theorems": [
    "Rpwa.Dec.sub_decay",
    "Rpwa.Dec.sub_momenta",
    "Rpwa.Dec.sub_of_X",
    "Rpwa.Dec.Rooted.check",
    "Rpwa.Dec.grown_data",
    "Rpwa.Dec.grown_dfs",
    "Rpwa.Dec.sub_rejected",
    "Rpwa.Dec.replaced_production",
    "Rpwa.Dec.sub_input",
    "Rpwa.Dec.sub_tree",
    "Rpwa.Dec.sub_good",
    "Rpwa.Dec.sub_bad",
    "Rpwa.Dec.ex_sub"
   ],
   "note": "The check of a sub-decay fails where indices number the final-state particles of the whole decay (sub_rejected), so amplitudes of such sub-decays cannot be set up; replacing an existing production vertex leaves the map of vertices stale and the next check ends the program (replaced_production)."
  },
  {
   "property": "C74",
   "status": "proved",
   "theorems": [
    "Rpwa.Dec.waves",
    "Rpwa.Dec.grow",
    "Rpwa.Dec.combine_spec",
    "Rpwa.Dec.newDecay_spec",
    "Rpwa.Dec.withProduction_spec",
    "Rpwa.Dec.Joinable.joined",
    "Rpwa.Dec.Joinable.inOrder",
    "Rpwa.Dec.Whole.cloned",
    "Rpwa.Dec.template",
    "Rpwa.Dec.ex_waves"
   ],
   "note": "Which isobars are tried for a pair of daughters is an arbitrary function here (C17 is about the choice); the order of the mass dependences of one isobar is simplified; correction of charges and removal of Bose duplicates do not touch the graphs and are not part of this model."
  },
  {
   "property": "C75",
   "status": "proved",
   "theorems": [
    "Rpwa.Evt.read_iff",
    "Rpwa.Evt.read_empty",
    "Rpwa.Evt.changed_particles",
    "Rpwa.Evt.read_limit",
    "Rpwa.Evt.round_trip",
    "Rpwa.Evt.name_of_id",
    "Rpwa.Evt.id_of_name",
    "Rpwa.Evt.digits_lost",
    "Rpwa.Evt.eta_prime",
    "Rpwa.Evt.open_single",
    "Rpwa.Evt.open_skips",
    "Rpwa.Evt.second_file_fails",
    "Rpwa.Evt.process_tree"
   ],
   "note": "Negative results: no second text file can be opened even if the particles agree (second_file_fails: the error report lies inside the comparing loop); 16 printed digits do not determine a double (digits_lost); the usual name of the eta' is not in the table (eta_prime). Words of a line are integers, other numbers, or neither; what is read back from a printed number is an arbitrary function."
  },
  {
   "property": "C76",
   "status": "proved",
   "theorems": [
    "Rpwa.ISamp.target",
    "Rpwa.ISamp.prior_spec",
    "Rpwa.ISamp.prior_impossible",
    "Rpwa.ISamp.prior_threshold",
    "Rpwa.ISamp.likelihood_spec",
    "Rpwa.ISamp.box_iff",
    "Rpwa.ISamp.complete",
    "Rpwa.ISamp.stored_iff",
    "Rpwa.ISamp.event_spec",
    "Rpwa.ISamp.new_iff"
   ],
   "note": "At threshold the prior of three or more particles is 0/0 (prior_threshold); a t' beyond the kinematic limit is not noticed and an event whose momenta are no numbers is stored (second part of event_spec); likelihood and observables end the program at impossible points (prior_impossible). BAT itself is not part of the repository and not modelled."
  },
  {
   "property": "C77",
   "status": "proved",
   "theorems": [
    "Rpwa.ResCfg.round_trip",
    "Rpwa.ResCfg.restart",
    "Rpwa.ResCfg.start_values",
    "Rpwa.ResCfg.written_ok",
    "Rpwa.ResCfg.write_needs_fsmd",
    "Rpwa.ResCfg.inf_error_ends",
    "Rpwa.ResCfg.readConfig_ok",
    "Rpwa.ResCfg.ex_round_trip",
    "Rpwa.ResCfg.ex_inf_error",
    "Rpwa.ResCfg.exCodec_faithful"
   ],
   "note": "A loaded YAML document is a tree of scalars, sequences and maps; formatting and parsing of numbers is a parameter that is required to be faithful (exCodec shows that this can be met). Findings: writing a configuration without a final-state mass dependence is undefined (write_needs_fsmd); an infinite error written as text cannot be read back (inf_error_ends). The hypothesis on dat says that the data do not depend on whether an unset mass limit is written as -1 or another negative number."
  },
  {
   "property": "C78",
   "status": "proved",
   "theorems": [
    "Rpwa.ResMin.declared",
    "Rpwa.ResMin.fit_done",
    "Rpwa.ResMin.kept",
    "Rpwa.ResMin.fixed_kept",
    "Rpwa.ResMin.anchor_real",
    "Rpwa.ResMin.limits_kept",
    "Rpwa.ResMin.order_left",
    "Rpwa.ResMin.lastMin_spec",
    "Rpwa.ResMin.quality_keys",
    "Rpwa.ResMin.quality_continue",
    "Rpwa.ResMin.quality_hesse",
    "Rpwa.ResMin.quality_ndf",
    "Rpwa.ResMin.initVars_restored",
    "Rpwa.ResMin.resume",
    "Rpwa.ResMin.exMz_sound",
    "Rpwa.ResMin.ex_fit",
    "Rpwa.ResMin.words_iff",
    "Rpwa.ResMin.order_default",
    "Rpwa.ResMin.stored",
    "Rpwa.ResMin.wave_parts"
   ],
   "note": "The minimizer of ROOT is an arbitrary function of what was asked before, with finite answers; where its answers matter it is required to keep fixed variables and respect limits (Spec.Sound, met by exMz). A release order that begins with `hesse` ends the program (fit_done). Finding: with more released variables than data points the number of degrees of freedom wraps around (quality_ndf). resume needs a final-state mass dependence (see C77)."
  },
  {
   "property": "C79",
   "status": "proved",
   "theorems": [
    "Rpwa.CgBox.tables_right",
    "Rpwa.CgBox.same_table",
    "Rpwa.CgBox.entry_zero",
    "Rpwa.CgBox.column_norm",
    "Rpwa.CgBox.libraries_agree",
    "Rpwa.CgBox.places_distinct",
    "Rpwa.CgBox.outside_triangle"
   ],
   "note": "Exact fractions (the model of C10) without overflow of `long`. Finding: outside the triangle condition only a message is printed and the table is wrong (outside_triangle)."
  },
  {
   "property": "C80",
   "status": "proved",
   "theorems": [
    "Rpwa.SpinTensor.hels_complete",
    "Rpwa.SpinTensor.components",
    "Rpwa.SpinTensor.components_orbital",
    "Rpwa.SpinTensor.normalized",
    "Rpwa.SpinTensor.symmetric",
    "Rpwa.SpinTensor.traceless",
    "Rpwa.SpinTensor.stretched"
   ],
   "note": "Exact fractions (the model of C10) without overflow of `long`; the numbers of terms 3^J are not bounded by memory."
  },
  {
   "property": "C81",
   "status": "proved",
   "theorems": [
    "Rpwa.SpinTensor.ampl_runs",
    "Rpwa.SpinTensor.ampl_covariant",
    "Rpwa.SpinTensor.ampl_bad_scheme",
    "Rpwa.SpinTensor.inner_last_pair"
   ],
   "note": "Finding: with three or more contractions between the spins only the pair that is taken last decides whether a term is kept (inner_last_pair), therefore ampl_covariant has the hypothesis i <= 2. Projections are never negative in the callers (TJSS)."
  },
  {
   "property": "C82",
   "status": "proved",
   "theorems": [
    "Rpwa.SpinTensor.channel_amplitudes",
    "Rpwa.SpinTensor.channel_nonvanishing",
    "Rpwa.SpinTensor.left_out_iff"
   ],
   "note": "Exact fractions (the model of C10) without overflow of `long`. The equivalence with the covariant amplitude needs at most two contractions between the spins (see C81)."
  },
  {
   "property": "C83",
   "status": "proved",
   "theorems": [
    "Rpwa.SpinTensor.helicity_amplitudes",
    "Rpwa.SpinTensor.contribution_covariant",
    "Rpwa.SpinTensor.parity_partner"
   ],
   "note": "Not modelled: printing, the amplitudes for identical particles and the nonrelativistic limit. contribution_covariant needs at most two contractions between the spins (see C81)."
  },
  {
   "property": "C84",
   "status": "proved",
   "theorems": [
    "Rpwa.Cuda.cuda_init",
    "Rpwa.Cuda.cuda_eval",
    "Rpwa.Cuda.cuda_no_leak",
    "Rpwa.Cuda.cuda_example"
   ],
   "note": "Real arithmetic. The CUDA runtime is specified in Model/Gpu.lean (sequentially consistent memory accesses of single elements in any order, synchronisation after each launch, unlimited memory)."
  },
  {
   "property": "C85",
   "status": "proved",
   "theorems": [
    "Rpwa.Cuda.cuda_gradient",
    "Rpwa.Cuda.cuda_gradient_is_derivative"
   ],
   "note": "As C84."
  },
  {
   "property": "C86",
   "status": "proved",
   "theorems": [
    "Rpwa.Cuda.grid_covers",
    "Rpwa.Cuda.init_reshuffled",
    "Rpwa.Cuda.second_init_takes_over",
    "Rpwa.Cuda.close_releases",
    "Rpwa.Cuda.large_data_truncated",
    "Rpwa.Cuda.float_init_ub",
    "Rpwa.Cuda.no_device_no_value"
   ],
   "note": "Findings: byte count wraps at 2^28 amplitudes; the return value of init is ignored; static state shared by all likelihood objects; sizeof(cuda::complex<float>) = 16."
  },
  {
   "property": "C87",
   "status": "proved",
   "theorems": [
    "Rpwa.FitInts.add_entry",
    "Rpwa.FitInts.add_tree",
    "Rpwa.FitInts.add_refuses",
    "Rpwa.FitInts.add_flat_not_last",
    "Rpwa.FitInts.strip_entry",
    "Rpwa.FitInts.strip_then_add",
    "Rpwa.FitInts.strip_then_add_example",
    "Rpwa.FitInts.add_tree_example"
   ],
   "note": "Finding, proved in add_tree: totalAcceptance is 1 for every entry after the first, because the number of events of the acceptance integral is overwritten. Needs positive normalisation integrals (the program divides by their roots)."
  },
  {
   "property": "C88",
   "status": "proved",
   "theorems": [
    "Rpwa.Attempts.seeds_spec",
    "Rpwa.Attempts.seeds_exist",
    "Rpwa.Attempts.seeds_too_many",
    "Rpwa.Attempts.seeds_example",
    "Rpwa.Attempts.fitAll_all",
    "Rpwa.Attempts.fitAll_keep",
    "Rpwa.Attempts.fitAll_keep_none_converged",
    "Rpwa.Attempts.fitAll_keep_no_attempt",
    "Rpwa.Attempts.none_converged_example",
    "Rpwa.Attempts.parsOf_fit",
    "Rpwa.Attempts.addMatrices_fit",
    "Rpwa.Attempts.addMatrices_integrals",
    "Rpwa.Attempts.pwaFits_keep",
    "Rpwa.Attempts.pwaFit_is_fill",
    "Rpwa.Attempts.pwaNloptFit_is_fill",
    "Rpwa.Attempts.addCovariance_keeps",
    "Rpwa.Attempts.pwaFits_keep_example",
    "Rpwa.Attempts.pwaFits_no_likelihood"
   ],
   "note": "Findings: without a converged fit the last result gets matrices (fitAll_keep_none_converged); no attempt ends in an IndexError (fitAll_keep_no_attempt); more attempts than random values never return (seeds_too_many). Names of amplitudes must not contain RE, _IM or flat (see C61), and the counter of fixed parameters must be right (see C28). The random numbers of Python are an arbitrary sequence."
  },
  {
   "property": "C89",
   "status": "proved",
   "theorems": [
    "Rpwa.IntMeta.calc_succeeds_iff",
    "Rpwa.IntMeta.calc_result",
    "Rpwa.IntMeta.calc_order",
    "Rpwa.IntMeta.calc_nothing",
    "Rpwa.IntMeta.merge_succeeds_iff",
    "Rpwa.IntMeta.merge_result",
    "Rpwa.IntMeta.merge_refused",
    "Rpwa.IntMeta.merge_of_calc",
    "Rpwa.IntMeta.otf_succeeds_iff",
    "Rpwa.IntMeta.otf_result",
    "Rpwa.IntMeta.otf_agrees",
    "Rpwa.IntMeta.Ex.consistent",
    "Rpwa.IntMeta.Ex.calc_example",
    "Rpwa.IntMeta.Ex.mergeable",
    "Rpwa.IntMeta.Ex.merge_example",
    "Rpwa.IntMeta.Ex.agrees_example",
    "Rpwa.IntMeta.Ex.vanishing_waves_refused",
    "Rpwa.IntMeta.Ex.refused_merge_keeps_hashes",
    "Rpwa.IntMeta.Ex.merged_bin_has_gap",
    "Rpwa.IntMeta.Ex.same_file_not_merged",
    "Rpwa.IntMeta.Ex.otf_not_merged"
   ],
   "note": "Findings: two vanishing waves are refused by calcIntegrals because the all-zero hash is set too late; a refused merge leaves foreign hashes and the enlarged bin behind; bins that do not touch are merged to a bin with a gap; bins of the same event file can never be merged; files written on the fly have no git hash and cannot be merged with others. md5 is an arbitrary function that never returns the empty string; numbers are real and complex numbers."
  },
  {
   "property": "C90",
   "status": "proved",
   "theorems": [
    "Rpwa.Refit.refit_wave_list",
    "Rpwa.Refit.rebuild_ok",
    "Rpwa.Refit.likelihood_point",
    "Rpwa.Refit.pwaFit_point",
    "Rpwa.Refit.pwaNloptFit_point",
    "Rpwa.Refit.vanishes_iff",
    "Rpwa.Refit.wave_list_refused",
    "Rpwa.Refit.refit_parameters",
    "Rpwa.Refit.refit_fixed",
    "Rpwa.Refit.refit_covariance",
    "Rpwa.Refit.getFitResult_iff",
    "Rpwa.Refit.several_attempts_refused",
    "Rpwa.Refit.single_event_normalised",
    "Rpwa.Refit.refit_without_mass",
    "Rpwa.Refit.ex_fitOf",
    "Rpwa.Refit.ex_point"
   ],
   "note": "Findings: the result of a single event fitted with amplitudes that are not normalised is evaluated with normalised ones (single_event_normalised); without a mass, or with a bin centre that is not positive, thresholded waves become free (refit_without_mass); the prior is not stored and must be given again. Names of amplitudes must not contain RE, _IM or flat (see C61)."
  },
  {
   "property": "C91",
   "status": "proved",
   "theorems": [
    "Rpwa.Select.best_result_iff",
    "Rpwa.Select.no_result_iff",
    "Rpwa.Select.chosen_unique",
    "Rpwa.Select.best_filter",
    "Rpwa.Select.best_results",
    "Rpwa.Select.best_results_complete",
    "Rpwa.Select.best_results_refused",
    "Rpwa.Select.same_centre_overwritten",
    "Rpwa.Select.wave_list_iff",
    "Rpwa.Select.wave_list_last_line",
    "Rpwa.Select.blank_line_fails",
    "Rpwa.Select.two_blanks_ignored",
    "Rpwa.Select.wave_list_round_trip"
   ],
   "note": "Findings: the nearest result is returned however far its bin is from the requested mass; bins that differ only in variables other than mass overwrite each other, the survivor depends on the order of a dictionary; a blank line in a wave list raises an IndexError, a line with two blanks between wave and threshold is skipped with a warning, so the wave is missing from the fit."
  },
  {
   "property": "C92",
   "status": "proved",
   "theorems": [
    "Rpwa.AmpCalc.amplitudes_of_events",
    "Rpwa.AmpCalc.nothing_if_unreadable",
    "Rpwa.AmpCalc.success_iff",
    "Rpwa.AmpCalc.success_complete",
    "Rpwa.AmpCalc.never_partial",
    "Rpwa.AmpCalc.never_partial_of_task",
    "Rpwa.AmpCalc.file_kept",
    "Rpwa.AmpCalc.crash_blocks",
    "Rpwa.AmpCalc.delete_and_retry",
    "Rpwa.AmpCalc.impossible_leaves_file",
    "Rpwa.AmpCalc.script_complete",
    "Rpwa.AmpCalc.script_twice",
    "Rpwa.AmpCalc.waves_selected",
    "Rpwa.AmpCalc.all_pairs",
    "Rpwa.AmpCalc.pairs_of_id"
   ],
   "note": "Findings: a run that is stopped leaves an unreadable file that makes every further run for this file fail until it is deleted; the same holds after failures of the function itself, and for event files without events; a wave list without waves selects all waves; a negative key-file index counts from the end; -b stops the script at the first type with fewer files."
  },
  {
   "property": "C93",
   "status": "proved",
   "theorems": [
    "Rpwa.Deweight.maxWeight_spec",
    "Rpwa.Deweight.deWeight_file",
    "Rpwa.Deweight.deWeight_zero",
    "Rpwa.Deweight.deWeight_refused",
    "Rpwa.Deweight.keep_independent",
    "Rpwa.Deweight.keep_probability",
    "Rpwa.Deweight.keep_probability_exact",
    "Rpwa.Deweight.keep_saturates",
    "Rpwa.Deweight.deWeight_unbiased",
    "Rpwa.Deweight.deWeight_expected_number",
    "Rpwa.Deweight.genPseudoData_file",
    "Rpwa.Deweight.genPseudoData_interrupted",
    "Rpwa.Deweight.genPseudoData_none",
    "Rpwa.Deweight.genPseudoData_model_fails",
    "Rpwa.Deweight.generate_deWeight"
   ],
   "note": "Findings: with a factor below one the largest weights all have probability one (keep_saturates); with factor zero, or without positive weights, exactly the events with positive weight are kept (deWeight_zero); an input without events raises a ZeroDivisionError after the file was written; genPseudoData without events leaves a file that is not an event file, and one without events if the model cannot be initialized."
  },
  {
   "property": "C94",
   "status": "proved",
   "theorems": [
    "Rpwa.EvtConvert.read_iff",
    "Rpwa.EvtConvert.all_used",
    "Rpwa.EvtConvert.extra_dropped",
    "Rpwa.EvtConvert.truncated_refused",
    "Rpwa.EvtConvert.incomplete_refused",
    "Rpwa.EvtConvert.round_trip",
    "Rpwa.EvtConvert.unknown_particle"
   ],
   "note": "Findings: particles of later events that the first event does not have are dropped silently (extra_dropped); everything after an empty line is ignored; particles without GEANT number are written with number 0 and read back under the name unknown (unknown_particle); additional variables are not written; only the first particle of the production kinematics is read as such."
  },
  {
   "property": "C95",
   "status": "proved",
   "theorems": [
    "Rpwa.CheckKey.checkAmps_errors",
    "Rpwa.CheckKey.checkWave_data",
    "Rpwa.CheckKey.checkWave_skipped",
    "Rpwa.CheckKey.checkWave_undefined",
    "Rpwa.CheckKey.scaled_amplitude",
    "Rpwa.CheckKey.symmetric_accepted",
    "Rpwa.CheckKey.opposite_sign_found",
    "Rpwa.CheckKey.growing_accepted",
    "Rpwa.CheckKey.conserving_wave_passes",
    "Rpwa.CheckKey.testAmplitude_verdict",
    "Rpwa.CheckKey.without_data_passes",
    "Rpwa.CheckKey.checkKeyFiles_report"
   ],
   "note": "Findings: errors in building a topology and inconsistent decays are noted but the wave counts as passed (`continue` before `successAll &= success`), so without test data the program ends with status 0 for every key file that can be parsed, and lists nothing (without_data_passes, checkKeyFiles_report); |ratio| - 1 > maxDelta accepts amplitudes that become larger by any factor, or zero, under the transformation (growing_accepted); waves without reflectivity and final states with undefined parity divide by zero (checkWave_undefined). Real numbers; counters without overflow."
  },
  {
   "property": "C96",
   "status": "proved",
   "theorems": [
    "Rpwa.TreeLeaf.reachable_good",
    "Rpwa.TreeLeaf.stored_same",
    "Rpwa.TreeLeaf.atLabel_spec",
    "Rpwa.TreeLeaf.define_spec",
    "Rpwa.TreeLeaf.set_spec",
    "Rpwa.TreeLeaf.add_iff",
    "Rpwa.TreeLeaf.add_atLabel",
    "Rpwa.TreeLeaf.sub_atLabel",
    "Rpwa.TreeLeaf.scale_atLabel",
    "Rpwa.TreeLeaf.sum_leaves",
    "Rpwa.TreeLeaf.equal_iff",
    "Rpwa.TreeLeaf.equal_same_size",
    "Rpwa.TreeLeaf.ex_unlabelled",
    "Rpwa.TreeLeaf.ex_equal",
    "Rpwa.TreeLeaf.ex_relabel"
   ],
   "note": "Findings: operator == compares the number of amplitudes of the left side with itself, so a prefix counts as equal, a shorter right side is read out of range, and labels are ignored (equal_iff, ex_equal); defineIncohSubAmps keeps the old amplitudes in their positions under the new labels (ex_relabel), and with no label makes a leaf without amplitudes that passes the check of += against a new leaf and is read out of range (add_iff, ex_unlabelled); indices are not checked."
  },
  {
   "property": "C97",
   "status": "proved",
   "theorems": [
    "Rpwa.PhaseGen.script_file",
    "Rpwa.PhaseGen.count_unique",
    "Rpwa.PhaseGen.script_tries",
    "Rpwa.PhaseGen.limits_spec",
    "Rpwa.PhaseGen.limit_ignored",
    "Rpwa.PhaseGen.freeName_spec",
    "Rpwa.PhaseGen.nothing_asked",
    "Rpwa.PhaseGen.wrong_names",
    "Rpwa.PhaseGen.limit_needs_event",
    "Rpwa.PhaseGen.efficiency_low"
   ],
   "note": "Findings: the maximum of attempts is compared only after an event was made, so the script does not end if no attempt succeeds (limit_needs_event); the efficiency it reports after reaching the maximum includes the attempts of the event that it throws away (efficiency_low); without events asked for it divides by zero after the file was written (nothing_asked); a wrong list of variable names leaves an output file that is not an event file and blocks the next run with this name (wrong_names)."
  },
  {
   "property": "C98",
   "status": "proved",
   "theorems": [
    "Rpwa.Arrays.combine_plain",
    "Rpwa.Arrays.combine_mat",
    "Rpwa.Arrays.setPart_spec",
    "Rpwa.Arrays.setPartMat_spec",
    "Rpwa.Arrays.setOne_spec",
    "Rpwa.Arrays.setVec_spec",
    "Rpwa.Arrays.adjust_spec",
    "Rpwa.Arrays.adjustMat_spec",
    "Rpwa.Arrays.copy_spec",
    "Rpwa.Arrays.copy_refused",
    "Rpwa.Arrays.checkSize_iff",
    "Rpwa.Arrays.plain_loses",
    "Rpwa.Arrays.stale"
   ],
   "note": "plain_loses shows why matrices need the special function. Finding (not reached by the readers, which set every bin once): setting a smaller part over a larger one keeps the rest of the old part (stale)."
  },
  {
   "property": "C99",
   "status": "proved",
   "theorems": [
    "Rpwa.Plots.zeroWave_iff",
    "Rpwa.Plots.wave_spec",
    "Rpwa.Plots.curve_spec",
    "Rpwa.Plots.grid_center",
    "Rpwa.Plots.grid_even",
    "Rpwa.Plots.ps_scaled",
    "Rpwa.Plots.near_spec",
    "Rpwa.Plots.near_half",
    "Rpwa.Plots.near_unique",
    "Rpwa.Plots.phase_steps",
    "Rpwa.Plots.phase_continuous",
    "Rpwa.Plots.pair_spec",
    "Rpwa.Plots.pairSys_ignores",
    "Rpwa.Plots.jobs_wave",
    "Rpwa.Plots.jobs_pair",
    "Rpwa.Plots.jobs_sum",
    "Rpwa.Plots.jobs_fsmd",
    "Rpwa.Plots.jobs_nodup",
    "Rpwa.Plots.sumBins_all",
    "Rpwa.Plots.sum_spec",
    "Rpwa.Plots.sum_refused",
    "Rpwa.Plots.halfBin_spec",
    "Rpwa.Plots.sys_wrong_point",
    "Rpwa.Plots.sys_empty_band",
    "Rpwa.Plots.turning_jumps"
   ],
   "note": "resonanceFitPlot.cc. pair_spec needs systematics in the same mass bins as the data (sys_wrong_point: otherwise the wrong point is moved) and limits within the mass bins. Numbers from an ordered field; fitted model, interpolation and ROOT's drawing not modelled."
  },
  {
   "property": "C100",
   "status": "proved",
   "theorems": [
    "Rpwa.FitCov.sd_refused",
    "Rpwa.FitCov.sd_outside",
    "Rpwa.FitCov.sd_inverse",
    "Rpwa.FitCov.covIdx_lt",
    "Rpwa.FitCov.covIdx_pairRow",
    "Rpwa.FitCov.covIdxSym_eq",
    "Rpwa.FitCov.pa_refused",
    "Rpwa.FitCov.pa_amplitudes",
    "Rpwa.FitCov.pa_outside",
    "Rpwa.FitCov.pa_inverse_real",
    "Rpwa.FitCov.pa_inverse_rotated",
    "Rpwa.FitCov.slope_deriv",
    "Rpwa.FitCov.rotated_spec",
    "Rpwa.FitCov.massRange_spec",
    "Rpwa.FitCov.prepareBin_some",
    "Rpwa.FitCov.runBin_spec",
    "Rpwa.FitCov.runBins_spec",
    "Rpwa.FitCov.ex_sd",
    "Rpwa.FitCov.ex_pa",
    "Rpwa.FitCov.ex_bins",
    "Rpwa.FitCov.inverter_exists"
   ],
   "note": "Exact arithmetic; TMatrixT::Invert is any function that inverts invertible matrices. The theorems on amplitudes need an anchor wave of the bin whose amplitude is not zero. Findings: an anchor amplitude of exactly zero with an error that is not zero passes the tests and is divided by its modulus; a bin whose anchor wave has nothing stored is refused also outside the mass range of the anchor wave; a rotated anchor wave outside its mass range is rotated without its own errors; readData ignores the returned value of both functions: after a refused mass bin the fit goes on, and all later mass bins and bins use covariances as if they were weights (proved: runBins_spec)."
  },
  {
   "property": "C101",
   "status": "proved",
   "theorems": [
    "Rpwa.FitRead.checkMassBins_ok",
    "Rpwa.FitRead.checkMassBins_not_ub",
    "Rpwa.FitRead.readMassBins_ok",
    "Rpwa.FitRead.readFile_ok",
    "Rpwa.FitRead.readFile_ub",
    "Rpwa.FitRead.readFile_two",
    "Rpwa.FitRead.sdCov_block",
    "Rpwa.FitRead.readWaves_spec",
    "Rpwa.FitRead.rotate_closest",
    "Rpwa.FitRead.rotate_within",
    "Rpwa.FitRead.bandsOf_ok",
    "Rpwa.FitRead.bandsOf_done",
    "Rpwa.FitRead.ex_file",
    "Rpwa.FitRead.ex_goodFile",
    "Rpwa.FitRead.ex_chain",
    "Rpwa.FitRead.ex_bands",
    "Rpwa.FitRead.ex_waves",
    "Rpwa.FitRead.ex_sdCov"
   ],
   "note": "Exact arithmetic. Wave names of a fit are different (checked when the input is read) and a result has one production amplitude per wave name. Finding: an empty tree reads element -1 of an empty array (:578)."
  },
  {
   "property": "C102",
   "status": "proved",
   "theorems": [
    "Rpwa.FitData.chiSquare_leastSquares",
    "Rpwa.FitData.chiSquare_leastSquares_amps",
    "Rpwa.FitData.chi2Rho_leastSquares",
    "Rpwa.FitData.chi2Amps_leastSquares",
    "Rpwa.FitData.rho_massBin",
    "Rpwa.FitData.inverse_allowed",
    "Rpwa.FitData.invBase_eq",
    "Rpwa.FitData.invBase_lt",
    "Rpwa.FitData.residual_exists",
    "Rpwa.FitData.ampResidual_exists",
    "Rpwa.FitData.ex_chiSquare",
    "Rpwa.FitData.ex_loaded",
    "Rpwa.FitData.ex_loaded_amps",
    "Rpwa.FitData.ex_chiSquare_amps"
   ],
   "note": "Exact arithmetic; the hypothesis that the preparation accepts every mass bin in use is necessary (C100: the returned value is ignored). For the spin-density matrix with all covariances the program does not minimize anything (it refuses). invBase_lt: for j < i a block of another pair is stored, within the matrix; it is never read."
  },
  {
   "property": "C103",
   "status": "proved",
   "theorems": [
    "Rpwa.Angles.mass_once",
    "Rpwa.Angles.angles_once",
    "Rpwa.Angles.mass_count",
    "Rpwa.Angles.angle_count",
    "Rpwa.Angles.fills_nodup",
    "Rpwa.Angles.combo_once",
    "Rpwa.Angles.comboFills_all",
    "Rpwa.Angles.combo_title",
    "Rpwa.Angles.combineSyms_spec",
    "Rpwa.Angles.combineOne_spec",
    "Rpwa.Angles.combineOne_perm",
    "Rpwa.Angles.ex_fills",
    "Rpwa.Angles.ex_overcount",
    "Rpwa.Angles.ex_combine"
   ],
   "note": "The order of the keys of the dictionary is arbitrary but fixed. Finding: line 377 tests the list of flags of all combinations instead of its element, so histograms of two isobars are filled for every permutation (comboFills_all, ex_overcount) although their titles count different ones (combo_title says when both agree)."
  },
  {
   "property": "C104",
   "status": "proved",
   "theorems": [
    "Rpwa.MassShapes.shapes_spec",
    "Rpwa.MassShapes.shapes_fresh",
    "Rpwa.MassShapes.single_spec",
    "Rpwa.MassShapes.single_fresh",
    "Rpwa.MassShapes.kallen_neg",
    "Rpwa.MassShapes.decays",
    "Rpwa.MassShapes.decays_unique",
    "Rpwa.MassShapes.below_difference",
    "Rpwa.MassShapes.ex_shapes",
    "Rpwa.MassShapes.ex_ok"
   ],
   "note": "Real numbers; mass > 0 (the program divides by it); the mass dependence of a vertex is a function of the vectors of its three particles. Finding: below the difference of the masses of the daughters the Kaellen function is positive again, so the forbidden decay is evaluated with daughters that have more energy than the parent (below_difference)."
  },
  {
   "property": "C105",
   "status": "proved",
   "theorems": [
    "Rpwa.ResFit.equalStructure_iff",
    "Rpwa.ResFit.mapping_same",
    "Rpwa.ResFit.mapping_iff",
    "Rpwa.ResFit.mappingEqual_iff",
    "Rpwa.ResFit.sum_iff",
    "Rpwa.ResFit.sum_ok",
    "Rpwa.ResFit.fsmd_iff",
    "Rpwa.ResFit.SumEx.sums",
    "Rpwa.ResFit.SumEx.fsmd_twice",
    "Rpwa.ResFit.SumEx.other_anchor",
    "Rpwa.ResFit.SumEx.fewer_waves"
   ],
   "note": "Real mass-bin centers (no NaN). Finding: fsmd::getNrBins is the number of bins of the fit also for one common function (fsmd.cc:54), so the condition in createPlots never selects the single plot for several bins (isSameFunctionForAllBins is meant). Finding: _mappingEqualInAllBins is true for a later bin with fewer waves (fewer_waves); createPlots also asks for equal structure."
  },
  {
   "property": "C106",
   "status": "proved",
   "theorems": [
    "Rpwa.Refit.slices_of_fit",
    "Rpwa.Refit.eigenvectors_free",
    "Rpwa.Refit.inverse_symmetric",
    "Rpwa.Refit.setup_accHermitian",
    "Rpwa.Refit.sliceLoop_neg",
    "Rpwa.Refit.eigenOk_exists",
    "Rpwa.Refit.ex_slices",
    "Rpwa.Lik.slice_first",
    "Rpwa.Lik.gradient_line",
    "Rpwa.Lik.slice_second",
    "Rpwa.Lik.hessian_of_eigenvector",
    "Rpwa.Lik.parabola_osculates",
    "Rpwa.Lik.parabola_approximates",
    "Rpwa.Lik.slice_minimum",
    "Rpwa.Lik.slice_maximum",
    "Rpwa.Lik.ex_parabola"
   ],
   "note": "Real numbers. ROOT is assumed to invert invertible matrices and to give eigenvectors of length 1 of symmetric matrices (EigenOk, shown to be possible by eigenOk_exists). A result without covariance matrix (written with little space) gives NaN from ROOT, ub in the model. That the gradient vanishes at the end of a fit is an assumption about the minimizer. The eigenvalues of the Minuit and the analytic matrix are paired by index."
  },
  {
   "property": "C107",
   "status": "proved",
   "theorems": [
    "Rpwa.DataObj.construct_consistent",
    "Rpwa.DataObj.construct_inconsistent",
    "Rpwa.DataObj.construct_noMassBins",
    "Rpwa.DataObj.construct_accepts",
    "Rpwa.DataObj.reads_defined",
    "Rpwa.DataObj.missing_matrix_silent",
    "Rpwa.DataObj.ex_missing",
    "Rpwa.DataObj.ex_dataObj",
    "Rpwa.DataObj.exArgs_typed",
    "Rpwa.DataObj.exArgs_consistent"
   ],
   "note": "Sizes of matrices are not converted to 32-bit integers in the model; boost::multi_array and TMatrixT by their documented behaviour. construct_inconsistent excludes the case of construct_noMassBins, which is undefined behaviour in the code. Blocks are stated for pairs i \u2264 j, the only ones that function.cc reads."
  },
  {
   "property": "C108",
   "status": "proved",
   "theorems": [
    "Rpwa.DataObj.anchors_found",
    "Rpwa.DataObj.anchors_missing",
    "Rpwa.DataObj.ex_anchors"
   ],
   "note": "The number of bins of the input is that of the list of numbers of waves, with one entry per bin set by readInFiles (C98)."
  },
  {
   "property": "C109",
   "status": "proved",
   "theorems": [
    "Rpwa.ISamp.generated_events",
    "Rpwa.ISamp.generated_all",
    "Rpwa.ISamp.generate_noChains",
    "Rpwa.ISamp.ex_generated"
   ],
   "note": "BAT is outside of the model: N iterations, one by one from any first number, one call of CalculateObservables per chain and iteration. Python 2 division of integers. A lag of 0 is excluded."
  }
 ]
}