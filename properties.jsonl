{"id": "C01", "title": "Spin coupling range is exactly the triangle rule", "statement": "Asked for the spins two particles can couple to, the library returns bounds such that stepping from the lower to the upper bound in units of hbar visits exactly the total spins J with |j1-j2| <= J <= j1+j2 and J of the same (half-)integer type; negative spins are reported invalid; restricting the range to a demanded range visits exactly the J that satisfy both conditions and reports 'invalid' exactly when no J does.", "quantifier": "all pairs of spin quantum numbers and all demanded ranges", "why_tests_cant": "unbounded integers; boundary parity adjustments at both ends and empty intersections must all be right", "anchors": ["utilities/spinUtils.hpp: getSpinRange, spinQnLargerEqual, spinQnSmallerEqual, spinStatesCanCouple, spinAndProjAreCompatible"]}
{"id": "C02", "title": "JPC / IGJP exotic classification is the quark model", "statement": "A JPC (IGJP) combination is called spin-exotic exactly when no fermion-antifermion state with some orbital angular momentum L and spin S in {0,1} has these quantum numbers.", "quantifier": "all J >= 0, all parities, C-/G-parities and isospins", "why_tests_cant": "the existential over L is infinite; the code uses a closed-form case split", "anchors": ["utilities/spinUtils.hpp: jpcIsExotic, igjpIsExotic"]}
{"id": "C03", "title": "Clebsch-Gordan cache never aliases and never leaves its array", "statement": "For every history of coefficient requests accepted by the argument checks, every element access to the coefficient cache is inside the array and two requests share a cell only if they are the same request, so every answer equals the answer computed without a cache.", "quantifier": "all histories of (j1,m1,j2,m2,J,M) requests", "why_tests_cant": "the array is indexed with negative projections; aliasing shows only for particular pairs of requests in one process history", "anchors": ["utilities/spinUtils.hpp: clebschGordanCoeffFunctor"]}
{"id": "C04", "title": "Clebsch-Gordan selection rules", "statement": "The coefficient is exactly zero whenever a selection rule (projection sum, triangle rule, |m|<=j, integer steps) is violated, and out-of-range arguments terminate instead of returning a value.", "quantifier": "all integer argument tuples", "why_tests_cant": "six unbounded integer arguments; all combinations of violated rules", "anchors": ["utilities/spinUtils.hpp: clebschGordanCoeffFunctor, clebschGordanCoeff"]}
{"id": "C05", "title": "Wigner d-function value does not depend on caching history", "statement": "The value returned for given quantum numbers and angle equals the Wigner sum evaluated from scratch, whatever requests were made before and whether caching was switched on or off in between.", "quantifier": "all histories of d-function requests and cache switches", "why_tests_cant": "the failure needs a specific order: fill, switch caching off, ask again, switch on, ask again", "anchors": ["utilities/dFunction.hpp: dFunctionFunctor, dFunctionFunctor::setUseCache"]}
{"id": "C06", "title": "Cached factorial is the factorial or stops", "statement": "Whatever factorials were requested before, a request for n returns exactly n! of the chosen numeric type if all intermediate factorials fit, and otherwise does not return.", "quantifier": "all histories of requests, all n, all integer type maxima", "why_tests_cant": "history dependent growing cache; overflow test is on a division", "anchors": ["utilities/factorial.hpp: factorialFunctor, initFactorial"]}
{"id": "C07", "title": "Accumulators return the exact sum", "statement": "Over exact arithmetic the plain, compensated and cascaded accumulators return the sum of all samples fed in; the cascaded accumulator fed with more samples than announced must also return the sum and stay inside its storage.", "quantifier": "all sample sequences and all announced sample counts", "why_tests_cant": "unbounded sequences; error appears only beyond the announced number of samples", "anchors": ["utilities/sumAccumulators.hpp: cascadedSumAccumulator, kahanSumAccumulator"]}
{"id": "C08", "title": "Multi-dimensional array offsets are a bijection", "statement": "Mapping an in-range index tuple to a linear offset and back is the identity, in both directions, and the offsets stay below the number of elements.", "quantifier": "all dimensions (any number, any size) and all in-range indices/offsets", "why_tests_cant": "unbounded rank and sizes", "anchors": ["utilities/arrayUtils.hpp: indicesToOffset, offsetToIndices, nmbElements"]}
{"id": "C09", "title": "Path decomposition loses nothing", "statement": "Directory part and file-name part of any path concatenate back to the path (with the separator), the file name contains no separator, and changing an extension keeps directory and stem and is idempotent.", "quantifier": "all path strings", "why_tests_cant": "all strings, including ones without separator, without dot, with dots in directories", "anchors": ["utilities/fileUtils.hpp: directoryFromPath, fileNameFromPath, fileNameNoExtFromPath, extensionFromPath, changeFileExtension"]}
{"id": "C10", "title": "Prime-factor fractions compute the right rational", "statement": "Construction from integers, multiplication, addition, inversion, square root and signed-root sums of exact fractions return the fraction with the mathematically right value, and equality of fractions is equality of values.", "quantifier": "all signed rational values and all operation sequences", "why_tests_cant": "representation invariants (trailing zeros, zero/infinity/undefined markers) break only after particular operation sequences", "anchors": ["relativisticAmpCorrections/TFracNum.cc: TFracNum, operator*=, operator+=, Sqrt, Invert, SumSignedRoots, operator==", "relativisticAmpCorrections/primeNumbers.cc"]}
{"id": "C11", "title": "Particle names encode charge reversibly", "statement": "Writing a particle name with its charge and parsing it back gives the same bare name and charge, for every well-formed bare name and every charge.", "quantifier": "all bare names and all integer charges", "why_tests_cant": "all strings; trailing digits and signs in names collide with the charge suffix", "anchors": ["particleData/particleProperties.cc: nameWithCharge, chargeFromName, stripChargeFromName"]}
{"id": "C12", "title": "Antiparticle conjugation is an involution", "statement": "The antiparticle of the antiparticle has the original properties; additive quantum numbers flip sign while spin, mass and isospin are kept; isospin projection obeys Gell-Mann-Nishijima.", "quantifier": "all particle property records", "why_tests_cant": "all records, including self-conjugate ones", "anchors": ["particleData/particleProperties.cc: antiPartProperties", "particleData/particleProperties.h: isospinProj"]}
{"id": "C13", "title": "Particle table look-up and matching", "statement": "An entry once in the table is never replaced by a later one with the same name; a look-up returns exactly the first one inserted; the selection of isobar candidates returns exactly the entries matching prototype, selection string, mass window, white and black list and decay constraints.", "quantifier": "all insertion histories, all tables and selection criteria", "why_tests_cant": "history and table quantification", "anchors": ["particleData/particleDataTable.cc: addEntry, entry, entriesMatching", "particleData/particleProperties.cc: operator==(particleProperties, pair)"]}
{"id": "C14", "title": "A written particle table can be read back", "statement": "Dumping a particle table and reading the dump gives the same table.", "quantifier": "all tables", "why_tests_cant": "requires all tables and both directions of a text format", "anchors": ["particleData/particleDataTable.cc: dump, read, readLine", "particleData/particleProperties.cc: dump, readLine"]}
{"id": "C15", "title": "Event momenta go to the right particles", "statement": "After announcing the names of the particles in an event file, each final-state particle of the decay topology reads the momentum stored at a distinct position with its own name, whatever the order of the names in the file; reverting restores the momenta read, and permuted reverts permute them accordingly.", "quantifier": "all orderings of particle names and all event contents", "why_tests_cant": "all permutations, including repeated names", "anchors": ["decayAmplitude/decayTopology.cc: initKinematicsData, readKinematicsData, revertMomenta"]}
{"id": "C16", "title": "Bose symmetrisation enumerates every exchange exactly once", "statement": "The list of symmetrisation terms contains every permutation of final-state particles that keeps names, exactly once, with the same weight, and the squared weights sum to one.", "quantifier": "all final states (any multiplicity, any number of species)", "why_tests_cant": "factorial number of permutations for unbounded multiplicity", "anchors": ["decayAmplitude/isobarDecayTopology.cc: getBoseSymmetrization, genBoseSymTermMaps, getFinalStateSymTermMaps"]}
{"id": "C17", "title": "Wave-set generation is sound and complete", "statement": "Generated waves are exactly the isobar quantum-number assignments allowed by the configured ranges and angular momentum, parity, C-/G-parity and isospin selection rules, without duplicates as long as the particle table does not use deprecated mass-dependence names.", "quantifier": "all particle tables, all topologies and all configured ranges", "why_tests_cant": "nested loops over unbounded ranges", "anchors": ["decayAmplitude/waveSetGenerator.cc: generateWaveSet"]}
{"id": "C18", "title": "Decay vertex consistency check is the conservation laws", "statement": "An isobar decay vertex is accepted exactly when all additive quantum numbers, multiplicative quantum numbers (G-, C-parity, parity with (-1)^L), spin couplings and isospin couplings are conserved.", "quantifier": "all mother/daughter quantum numbers, L and S", "why_tests_cant": "unbounded integer quantum numbers with wildcard zero values", "anchors": ["decayAmplitude/isobarDecayVertex.cc: checkConsistency"]}
{"id": "C19", "title": "Integral matrix is the sum over events", "statement": "After any sequence of event contributions, additions and renormalisations of integral matrices, each element equals the sum over events of w a_i conj(a_j) over the event number; the matrix is Hermitian and positive semidefinite.", "quantifier": "all event samples, waves and merge orders", "why_tests_cant": "all samples and all merge trees", "anchors": ["decayAmplitude/ampIntegralMatrix.cc: addEvent, integrate, operator+=, renormalize, element"]}
{"id": "C20", "title": "Merging integral matrices matches waves by name", "statement": "Adding two integral matrices with the same wave set in different order adds the elements belonging to the same pair of wave names and keeps every wave attached to its own description.", "quantifier": "all wave orders and matrices", "why_tests_cant": "all permutations of wave lists", "anchors": ["decayAmplitude/ampIntegralMatrix.cc: operator+=, operator-=, hasIdenticalWaveSet"]}
{"id": "C21", "title": "Scaling an integral matrix keeps its meaning", "statement": "Multiplying or dividing an integral matrix by a positive number multiplies the un-normalised integrals and event number alike, leaving the normalised elements unchanged; renormalising to another number of events leaves the normalised elements unchanged.", "quantifier": "all matrices and scale factors", "why_tests_cant": "truncation of the event number shows only for particular factors", "anchors": ["decayAmplitude/ampIntegralMatrix.cc: operator*=, operator/=, renormalize"]}
{"id": "C22", "title": "Integral matrix text round trip", "statement": "Writing an integral matrix in text form and reading it back yields the same matrix.", "quantifier": "all matrices and wave names", "why_tests_cant": "all names, all contents", "anchors": ["decayAmplitude/ampIntegralMatrix.cc: writeAscii, readAscii"]}
{"id": "C23", "title": "Fit parameter array and production amplitudes are in bijection", "statement": "Each real fit parameter is used for exactly one real component of one production amplitude (or the flat wave), unused rank/wave combinations are zero, and copying parameters to amplitudes and back returns the same parameter array.", "quantifier": "all ranks, reflectivity partitions, wave lists and thresholds", "why_tests_cant": "all triangular rank/wave layouts", "anchors": ["partialWaveFit/pwaLikelihood.cc: buildParDataStruct, copyFromParArray, copyToParArray"]}
{"id": "C24", "title": "Likelihood gradient is the derivative of the likelihood", "statement": "The analytic gradient (and the gradient returned together with the function value) equals the true partial derivatives of the likelihood at every parameter point where it is defined, priors included.", "quantifier": "all parameter points, data samples, acceptance matrices, ranks, priors", "why_tests_cant": "continuous parameter space; finite differences only approximate at sampled points", "anchors": ["partialWaveFit/pwaLikelihood.cc: DoEval, Gradient, FdF"]}
{"id": "C25", "title": "Likelihood Hessian is the derivative of the gradient", "statement": "The analytic Hessian equals the true second partial derivatives of the likelihood.", "quantifier": "all parameter points, data samples, acceptance matrices, ranks, priors", "why_tests_cant": "continuous parameter space", "anchors": ["partialWaveFit/pwaLikelihood.cc: Hessian"]}
{"id": "C26", "title": "Cached partial derivatives are never stale", "statement": "Asking for a single partial derivative returns the derivative at the requested parameters under the currently selected prior, whatever was asked before.", "quantifier": "all histories of derivative requests and setting changes", "why_tests_cant": "history dependent cache with an initial zero point", "anchors": ["partialWaveFit/pwaLikelihood.cc: DoDerivative"]}
{"id": "C27", "title": "Sign correction of fit parameters is harmless", "statement": "Fixing the phase convention (anchor amplitudes real and positive) never changes the likelihood and is idempotent.", "quantifier": "all parameter arrays", "why_tests_cant": "continuous parameter space, all layouts", "anchors": ["partialWaveFit/pwaLikelihood.cc: CorrectParamSigns"]}
{"id": "C28", "title": "Covariance matrix covers exactly the free parameters", "statement": "The covariance matrix is the inverse Hessian on the free parameters and zero in rows and columns of fixed parameters; sizes always fit.", "quantifier": "all parameter layouts and sets of fixed parameters", "why_tests_cant": "all subsets of fixed parameters", "anchors": ["partialWaveFit/pwaLikelihood.cc: CovarianceMatrix, addAmplitude, nmbParsFixed"]}
{"id": "C29", "title": "Normalised and un-normalised likelihood agree", "statement": "Switching to the normalised parametrisation, where each amplitude is rescaled by the square root of its integral and the event number, changes the likelihood only by a parameter-independent constant.", "quantifier": "all parameter points and data samples", "why_tests_cant": "continuous space", "anchors": ["partialWaveFit/pwaLikelihood.cc: finishInit, DoEval"]}
{"id": "C30", "title": "Spin-density matrix of a fit result", "statement": "For every fit result the spin-density element of two waves equals the event number times the sum over ranks of V_A conj(V_B) over same-rank amplitudes; the matrix is Hermitian and positive semidefinite; waves sharing part of their names are kept apart.", "quantifier": "all fit results, ranks and wave names", "why_tests_cant": "all wave name sets, including names that contain each other", "anchors": ["partialWaveFit/fitResult.cc: spinDensityMatrixElem", "partialWaveFit/fitResult.h: prodAmpIndicesForWave, prodAmpIndexPairsForWaves"]}
{"id": "C31", "title": "Error propagation of derived quantities is the Jacobian rule", "statement": "Uncertainties of intensities, spin-density elements, phases, coherences and overlaps equal sqrt(J C J^T) with J the true Jacobian of the quantity.", "quantifier": "all fit results", "why_tests_cant": "continuous; wrong factor invisible when event number is 1", "anchors": ["partialWaveFit/fitResult.cc: intensityErr, spinDensityMatrixElemCov, phaseErr, coherenceErr, overlapErr"]}
{"id": "C32", "title": "Coherence and phase are well-formed", "statement": "Coherence of two waves lies between 0 and 1, is symmetric, equals 1 at rank 1; phases are antisymmetric.", "quantifier": "all fit results", "why_tests_cant": "continuous", "anchors": ["partialWaveFit/fitResult.cc: coherence, phase"]}
{"id": "C33", "title": "Refilling a fit result forgets the old content", "statement": "Filling a fit result object a second time leaves no trace of the first content.", "quantifier": "all pairs of contents", "why_tests_cant": "history dependent", "anchors": ["partialWaveFit/fitResult.cc: fill, buildWaveMap"]}
{"id": "C34", "title": "Best fit result is selected", "statement": "Collecting fit results never fails an assertion; the returned bins are exactly the bins with a (converged, if requested) attempt; per bin every attempt is returned exactly once, in ascending order of the negative log-likelihood with ties in file order, so the first returned is the first best one; matrices are kept for the best attempt and, if it has not converged, for the best converged one, and stripped from all others if requested; in only-best mode exactly the first best attempt is returned.", "quantifier": "all sets of files, attempts, ties and option combinations", "why_tests_cant": "all orders and ties", "anchors": ["partialWaveFit/fitResult.cc: getFitResultsFromFilesInMultibins"]}
{"id": "C35", "title": "Complex matrix algebra", "statement": "Conjugate transpose, equality and products of the complex matrix class satisfy the matrix identities (dagger of a product, equality means same shape and entries).", "quantifier": "all complex matrices of all shapes", "why_tests_cant": "all shapes; non-square shapes read outside", "anchors": ["partialWaveFit/complexMatrix.cc: dagger, operator==, t"]}
{"id": "C36", "title": "Spherical parameter space", "statement": "Choosing angles (by setAngles or at random) puts the production amplitudes on the unit sphere at these angles; rho is their intensity under the integral matrix; getR is the radius that gives the number of events; the reported derivatives of coordinates and radius are the derivatives; the reported area elements are those of the sphere; converting a vector to spherical coordinates and back (and vice versa) gives the vector again.", "quantifier": "all numbers of amplitudes, all angles, all random numbers, all Hermitian integral matrices, all vectors", "why_tests_cant": "continuous, unbounded dimension", "anchors": ["partialWaveFit/parameterSpace.cc: convertToSphericalCoordinates, convertToCartesianCoordinates, setAngles, pickUniformAngles, calculateRho, calculateDSigmaDPhi, calculateDRhoDPhi, calculateDRDPhi, getDS, getDASphereHat"]}
{"id": "C37", "title": "Content hash authenticates stored events and amplitudes", "statement": "The hash written with a file is the hash that re-reading its content produces, and depends on exactly the stored content in order.", "quantifier": "all event sequences", "why_tests_cant": "all contents", "anchors": ["storageFormats/eventFileWriter.cc: addEvent, finalize", "storageFormats/eventMetadata.cc: recalculateHash", "storageFormats/amplitudeFileWriter.cc", "storageFormats/amplitudeMetadata.cc"]}
{"id": "C38", "title": "Merging event files concatenates", "statement": "Merging event data files yields the concatenation of their events, a valid hash, and is refused when particle names, variables or auxiliary values disagree.", "quantifier": "all lists of input files", "why_tests_cant": "all lists", "anchors": ["storageFormats/eventMetadata.cc: merge"]}
{"id": "C39", "title": "Event bins partition the data", "statement": "On-the-fly binning uses half-open bins, so that for adjacent bins every in-range event belongs to exactly one bin and the selected subsets partition the sample.", "quantifier": "all bin edges and samples", "why_tests_cant": "all boundaries", "anchors": ["partialWaveFit/pwaLikelihood.cc: setOnTheFlyBinning", "decayAmplitude/ampIntegralMatrix.cc: integrate", "pyInterface/module/utils/_binning.py: inBin"]}
{"id": "C40", "title": "Multi-bin ordering and text form", "statement": "Bins are totally ordered, comparison operators are mutually consistent, and the text form of a bin identifies it.", "quantifier": "all bins", "why_tests_cant": "all pairs/triples of bins", "anchors": ["pyInterface/module/utils/_binning.py: multiBin"]}
{"id": "C41", "title": "Every event file needed for a bin is used", "statement": "The file manager returns for an analysis bin every event file that can contain an event in it, and file names of amplitudes and integrals are unique per wave/file/type.", "quantifier": "all sets of files and bins", "why_tests_cant": "all configurations", "anchors": ["pyInterface/module/_fileManager.py: _getEventFileIdsForIntegralBin, _getAmplitudeFilePaths, _getIntegralFilePaths"]}
{"id": "C42", "title": "Resonance-fit chi^2 is independent of the evaluation history", "statement": "For any sequence of parameter arrays the chi^2 of the resonance model equals the value computed from scratch for that parameter array.", "quantifier": "all histories of parameter arrays, all models", "why_tests_cant": "cache invalidation errors show only for particular parameter changes", "anchors": ["resonanceFit/cache.cc", "resonanceFit/function.cc: chiSquare", "resonanceFit/model.cc: importParameters, productionAmplitude", "resonanceFit/components.cc: importCouplings, importBranchings, importParameters, val"]}
{"id": "C43", "title": "Resonance-fit parameter layout", "statement": "Every free coupling, branching, shape and phase-space parameter of the model occupies exactly one position of the parameter array.", "quantifier": "all models", "why_tests_cant": "all models", "anchors": ["resonanceFit/model.cc: init", "resonanceFit/components.cc", "resonanceFit/fsmd.cc"]}
{"id": "C44", "title": "Generated diffractive kinematics is exact", "statement": "Generated events have the X system on its mass shell, the recoil particle with its mass, energy-momentum is conserved and the momentum transfer equals the drawn t'.", "quantifier": "all beam momenta, masses and t' in the physical range", "why_tests_cant": "continuous", "anchors": ["generators/diffractivePhaseSpace.cc: calculateXSystemLab"]}
{"id": "C45", "title": "Generator weights belong to the configured final state", "statement": "Maximum weights used for accept/reject belong to the currently configured decay products.", "quantifier": "all configuration histories", "why_tests_cant": "history dependent", "anchors": ["generators/diffractivePhaseSpace.cc: setDecayProducts, addDecayProduct, event"]}
{"id": "C46", "title": "Isospin symmetrisation contains every charge assignment", "statement": "Candidates for isospin symmetrisation are all permutations within groups of equal I, J, P, each once; the terms kept couple at every vertex, no two of them differ only by exchanging identical particles, and every physically different, couplable assignment of charges to the final-state positions is represented.", "quantifier": "all decay topologies", "why_tests_cant": "combinatorial explosion of final states and topologies; omissions change intensities silently", "anchors": ["decayAmplitude/isobarDecayTopology.cc: getIsospinSymmetrization, getFsParticleGroupsByJPI, getAllGroupPermutations"]}
{"id": "C47", "title": "Wave names identify waves", "statement": "Two decay topologies get the same wave name exactly if X has the same quantum numbers, spin projection and reflectivity and the decay chains have the same isobars, final-state particles, orbital angular momenta and spins; the name of a wave is never found inside the name of a production amplitude of another wave.", "quantifier": "all decay topologies (any depth) with particle names free of the separator characters", "why_tests_cant": "unbounded decay trees, all pairs of waves", "anchors": ["decayAmplitude/waveDescription.cc: waveNameFromTopology", "decayAmplitude/massDependence.cc: parentLabelForWaveName", "utilities/conversionUtils.hpp: spinQn, parityQn"]}
{"id": "C48", "title": "Decay amplitudes used in a bin are those of the bin's events, in the same order for all waves", "statement": "After on-the-fly binning was set up, loading the amplitudes of a wave yields exactly the amplitudes of the events in the bin in file order; for every sequence of calls (accepted or refused) the n-th amplitudes of all loaded waves belong to the same event; amplitude files that refer to event files unknown to the binning are refused.", "quantifier": "all sequences of calls, all lists of files, bins and selections", "why_tests_cant": "misalignment shows only for particular combinations of files and bins", "anchors": ["partialWaveFit/pwaLikelihood.cc: setOnTheFlyBinning, addAmplitude"]}
{"id": "C49", "title": "Grid binning of the configuration is complete and free of double counting", "statement": "A binning given as a grid of edges (or range with a number of bins) is expanded to all combinations of adjacent edges, each once, so that every event in the range of the grid is in exactly one bin; a list of bins is taken as it is or rejected.", "quantifier": "all grids with any number of variables and edges, all lists of bins", "why_tests_cant": "the expansion is an odometer over arbitrarily many variables and edges", "anchors": ["pyInterface/module/_config.py: _readBinning, _binningInputHandlingForCaseTwoAndThree, _roundToNSignificantDigits"]}
{"id": "C50", "title": "Mass ranges and number of data points of a resonance fit", "statement": "A mass bin is used for a wave exactly if its centre is inside the configured mass range of the wave, for a pair of waves if it is used for both; the reported number of data points is the number of real numbers that are compared in the chi^2.", "quantifier": "all mass binnings, mass ranges and models", "why_tests_cant": "all combinations of ranges and binnings; wrong counts only change the reduced chi^2", "anchors": ["resonanceFit/resonanceFitReadData.cc: prepareMassLimit, prepareMassLimits", "resonanceFit/function.cc: getNrDataPoints"]}
{"id": "C51", "title": "Phase-space kinematics conserve energy and momentum", "statement": "For every decay set up with at least two daughters, every n-body system at or above threshold (at rest or moving), both kinematics algorithms and every sequence of random numbers, the generated daughters sum up to the n-body Lorentz vector, have their masses and non-negative energies, and the subsystems of the first i daughters have the picked masses; picked masses are always kinematically possible, so that generation never aborts; below threshold nothing is generated. Conversely every possible decay can be produced.", "quantifier": "all numbers of particles, masses, n-body Lorentz vectors, random numbers, both algorithms", "why_tests_cant": "real-valued inputs, any number of particles", "anchors": ["nBodyPhaseSpace/nBodyPhaseSpaceKinematics.cc: setDecay, calcBreakupMomenta, calcEventKinematics", "nBodyPhaseSpace/nBodyPhaseSpaceGenerator.cc: pickMasses, generateDecay"]}
{"id": "C52", "title": "Phase-space weights", "statement": "The weight of a generated event times the density with which its subsystem masses are picked is proportional to Lorentz-invariant phase space (all weight types except FLAT), with the documented absolute normalisation for S_U_CHUNG and NUPHAZ; GENBOD weights are at most one; weights are never negative; an event is accepted exactly if its weight exceeds the random fraction of the maximum weight; the estimated maximum weight is the largest of the sampled ones.", "quantifier": "all numbers of particles, masses, random numbers, weight types and histories of configuration calls", "why_tests_cant": "distributions cannot be established by samples; histories of setters", "anchors": ["nBodyPhaseSpace/nBodyPhaseSpaceKinematics.cc: calcWeight", "nBodyPhaseSpace/nBodyPhaseSpaceGenerator.cc: pickMasses, estimateMaxWeight", "nBodyPhaseSpace/nBodyPhaseSpaceGenerator.h: eventAccepted"]}
{"id": "C53", "title": "Decay kinematics are evaluated in the Gottfried-Jackson and helicity frames", "statement": "The momenta that enter a decay amplitude are those in the Gottfried-Jackson frame (X at rest, beam along +z, y-axis along beam x X) and, below an isobar, in the isobar's helicity frame (isobar at rest, its direction of flight in the parent's frame along +z, y-axis along z x direction); these frames are unique, so that the amplitude does not depend on the orientation of the laboratory, and a reflection of the parent frame reflects the helicity frame.", "quantifier": "all beams, X systems, daughters and momenta", "why_tests_cant": "real-valued inputs; degenerate directions are hit only by accident", "anchors": ["decayAmplitude/isobarAmplitude.cc: gjTransform", "decayAmplitude/isobarHelicityAmplitude.cc: hfTransform"]}
{"id": "C54", "title": "Decay amplitudes have definite parity and reflectivity and do not depend on the laboratory frame", "statement": "For a parity-conserving decay chain of X into spinless particles, the amplitude in the reflectivity basis of the event reflected through the production plane is -reflectivity x (product of the final-state parities) times the amplitude of the event; inverting all momenta in the rest frame of X multiplies the amplitude by the parity of X times that product; without the reflectivity basis the reflection exchanges spin projections M and -M up to the sign P (-1)^(J-M); rotating the whole event leaves the amplitude unchanged; the helicity and canonical formalisms agree for two spinless daughters. The same holds for the symmetrised amplitudes, so that coherent sums over waves of one reflectivity have the same intensity for an event and its mirror image.", "quantifier": "all decay trees, quantum numbers, mass dependences, beams and events", "why_tests_cant": "unbounded decay trees and real-valued events; sign errors cancel in typical comparisons", "anchors": ["decayAmplitude/isobarAmplitude.cc: amplitude, symTermAmp, twoBodyDecayAmplitudeSum, spaceInvertDecay, reflectDecay", "decayAmplitude/isobarHelicityAmplitude.cc: transformDaughters, twoBodyDecayAmplitude", "decayAmplitude/isobarCanonicalAmplitude.cc: transformDaughters, twoBodyDecayAmplitude"]}
{"id": "C55", "title": "Two-body kinematics, barrier factors and Dalitz-plot borders", "statement": "The breakup momentum is the unique momentum at which two daughters at rest-frame have the mass of the mother; it is computed exactly if the decay is possible and never aborts for the particles of an event; the complex breakup momentum continues it below threshold on the branch with positive imaginary part; squared barrier factors are the penetrabilities of the centrifugal barrier for orbital angular momenta 0 to 7, normalised to 1 at the scale momentum and growing with momentum, and zero otherwise; the reflectivity factor is the sign of the parity of the state under reflection; the kinematic border of a Dalitz plot bounds exactly the invariant masses of three particles.", "quantifier": "all real masses and momenta, all orbital angular momenta and quantum numbers, all three-particle events", "why_tests_cant": "real-valued inputs, branch points at thresholds", "anchors": ["utilities/physUtils.hpp: breakupMomentumSquared, breakupMomentum, breakupMomentumComplex, barrierFactorSquared, reflectivityFactor, dalitzKinematicBorder"]}
{"id": "C56", "title": "Mass dependences are the documented resonance shapes and unitary where they claim to be", "statement": "Breit-Wigner amplitudes have the documented numerator and mass-dependent width, equal i at the nominal mass and satisfy the optical theorem for their width; the Flatte, Au-Morgan-Pennington, generalised LASS and Palano-Pennington amplitudes come from real K matrices (real phase shifts) and satisfy unitarity with the phase space of the open channels; binned amplitudes of adjacent bins add up to the amplitude of the union; amplitudes do not depend on earlier evaluations.", "quantifier": "all masses of the resonance and of the daughters, all parameters, all histories of evaluations", "why_tests_cant": "real-valued inputs with thresholds and poles; history only via hidden state", "anchors": ["decayAmplitude/massDependence.cc: amp of all classes", "decayAmplitude/massDependence.h"]}
{"id": "C57", "title": "Key files describe the amplitude they were written from", "statement": "Writing a decay amplitude (production vertex, quantum numbers of X, decay chain with couplings and mass dependences, formalism and symmetrisation switches) to a key file and reading it again yields the same amplitude and final state, and writing it a second time changes nothing; key files that cannot be understood are rejected.", "quantifier": "all decay chains of any depth, all quantum numbers, mass dependences, production vertices and switches", "why_tests_cant": "unbounded decay trees; every field may get lost separately", "anchors": ["decayAmplitude/waveDescription.cc: constructDecayTopology, constructDecayVertex, constructAmplitude, setKeysFromAmplitude, setXDecayKeys, setMassDependence, setProductionVertexKeys", "decayAmplitude/massDependence.cc: createMassDependence", "decayAmplitude/isobarDecayTopology.cc: calcIsobarCharges", "decayAmplitude/leptoProductionVertex.cc: leptoProductionVertex"]}
{"id": "C58", "title": "Breit-Wigner amplitudes with tabulated phase-space integrals", "statement": "The mass-dependent width of an isobar with unstable daughters is its nominal width times the ratio of the phase-space integrals at the mass of the isobar and at the nominal mass; integrals are interpolated linearly between the neighbouring points of a table that reaches from the threshold to the configured upper bound; amplitudes equal i at the nominal mass; the table only grows, by estimates at the nominal masses used, and its file always holds the same table, so that a restarted or a second program gets the same amplitudes.", "quantifier": "all tables, masses, nominal masses and widths, all histories of evaluations, all interleavings and crash points of programs sharing the table file", "why_tests_cant": "real-valued masses; hidden state grows with each new nominal mass; file races and crashes", "anchors": ["decayAmplitude/phaseSpaceIntegral.cc: operator(), dyn, interpolate, getInt0, addToIntegralTable, fillIntegralTable, readIntegralFile, writeIntegralTableToDisk"]}
{"id": "C59", "title": "Key files that describe several waves", "statement": "A key file with `expand` groups describes exactly the waves obtained by replacing each of them by one of its bins, every combination once, in the order of the file; a key file without `expand` groups describes one wave; unusable `expand` groups are rejected, and parsing terminates.", "quantifier": "all key files: any nesting and number of expand groups, any number of bins, any size of the text", "why_tests_cant": "unbounded nesting and number of combinations; the failure depends on the size of the file", "anchors": ["decayAmplitude/waveDescription.cc: parseKeyFile, expand, findExpand, parseKeyFileContent", "utilities/libConfigUtils.hpp: copyConfig"]}
{"id": "C60", "title": "Result of a partial-wave fit", "statement": "A fit result holds amplitudes, names, parameter indices, likelihood and integrals that all belong to one set of parameters: a point equivalent to the minimum found, which obeys the sign convention (real, non-negative anchor and flat amplitudes) and is zero for waves below threshold; it is marked as converged exactly if minimisation, requested eigenvalue check and covariance calculation succeeded; its covariance matrix is the inverse of the Hessian at the stored parameters; at a stationary point with flat prior the predicted number of accepted events equals the number of events in the data.", "quantifier": "all likelihoods (waves, ranks, events, integrals), all minimisers that report the value at the point they return, all seeds and options", "why_tests_cant": "real-valued minimisation; the wrong sign of a covariance appears only for particular minima", "anchors": ["highLevelInterface/pwaFit.cc: pwaFit", "partialWaveFit/pwaLikelihood.cc: CorrectParamSigns, buildProdAmpArrays, getIntegralMatrices", "partialWaveFit/fitResult.cc: fill"]}
{"id": "C61", "title": "Start values of a fit", "statement": "Every free parameter starts at the value of the same parameter in the earlier fit result that is closest in mass, if that value is not zero, and otherwise at a random value whose magnitude lies between 0.01 and the square root of the number of events; parameters of switched-off waves are fixed at zero; the values depend only on seed, parameters and start file.", "quantifier": "all wave names, ranks, start files with any number of entries, seeds and mass bins", "why_tests_cant": "names are free text; any number of entries and bins", "anchors": ["highLevelInterface/pwaFit.cc: pwaFit", "partialWaveFit/fitResult.cc: fitParameter", "partialWaveFit/fitResult.h: massBinCenter"]}
{"id": "C62", "title": "Fit with NLopt", "statement": "NLopt sees the likelihood as a function of the free parameters only: value and gradient are those of the likelihood with fixed parameters at zero, for every sequence of fits in one process; the result is stored as by the Minuit fit, with the covariance matrix of the stored parameters, and is marked as converged only if the optimiser converged.", "quantifier": "all likelihoods, sets of fixed parameters, optimisers and sequences of fits in one process", "why_tests_cant": "static buffers couple all fits of a process; gradient must match for all points", "anchors": ["highLevelInterface/pwaNloptFit.cc: pwaNloptFit, rpwaNloptFunc, addFixedParams"]}
{"id": "C63", "title": "Setting up a likelihood", "statement": "If every call of the set-up reports success, the likelihood consists of exactly what it was given: the amplitudes of each wave (divided by the square root of its normalisation integral if amplitudes are normalised), the acceptance integrals per generated event with the same factors, the fraction of accepted events, the phase-space integrals, and the parameters of the wave list, those of empty waves being fixed. The order of the waves does not matter, usable input is always accepted, and the likelihood cannot be evaluated before the set-up is finished.", "quantifier": "all wave lists, integral matrices, amplitudes, numbers of events, options, and orders and sequences of calls", "why_tests_cant": "unbounded numbers of waves and events; the result depends on the whole history of calls", "anchors": ["partialWaveFit/pwaLikelihood.cc: init, addNormIntegral, addAccIntegral, addAmplitude, finishInit, reorderIntegralMatrix, readWaveList", "pyInterface/module/_likelihood.py: initLikelihood"]}
{"id": "C64", "title": "Accuracy of the accumulators with rounded arithmetic", "statement": "With arithmetic in which every addition and subtraction has a relative error of at most u: the compensated accumulator returns the sum of the initial value and all samples up to a few u times the sum of the absolute values, whatever the number of samples (below 1/(100 u)); the cascaded accumulator, if no more samples are given than announced, up to the error of log2(n) additions.", "quantifier": "all roundings of relative accuracy u, all numbers of samples and all sample values", "why_tests_cant": "unbounded number of samples and every way of rounding", "anchors": ["utilities/sumAccumulators.hpp: compensatedSumAccumulator, cascadedSumAccumulator"]}
{"id": "C65", "title": "Weights of Monte Carlo events", "statement": "For every fit result and every set of decay amplitudes that fits to it, the weighting program writes one entry per event; the weight is the intensity of the fitted model (waves of equal reflectivity and rank interfere, the flat wave adds incoherently) for the event's decay amplitudes divided by the square roots of their integrals, per event of the integral; the weights by reflectivity, wave, production amplitude and sample of production amplitudes are the corresponding parts. If the integrals are those of the weighted events, the weights (of all waves, and of every single wave) add up to the intensities that the fit result reports divided by its normalisation. The fit result used is, among the results closest in mass to the bin centre, the first with the best likelihood. The intensity object used by the generators gives, after every history of calls that leaves it initialised, the same intensity without the flat wave.", "quantifier": "all fit results, wave sets, numbers of events, amplitudes, and histories of calls", "why_tests_cant": "unbounded numbers of waves, ranks and events, and every order of calls", "anchors": ["generators/weightEvents.cc: main, openRootAmpFiles", "generators/modelIntensity.cc, modelIntensity.h: modelIntensity"]}
{"id": "C66", "title": "Random variation of production amplitudes", "statement": "Varying the production amplitudes of a fit result at random changes nothing else in the result, leaves components that were no fit parameters as they are, and varies the others around the fitted values with the covariances of the fit.", "quantifier": "all fit results, covariance matrices and random numbers", "why_tests_cant": "statement about a distribution, for every covariance matrix", "anchors": ["partialWaveFit/fitResult.cc: fitResult::variedProdAmps"]}
{"id": "C67", "title": "Picking mass and t'", "statement": "A picker of mass and t' is initialised exactly by settings of the documented form (ordered ranges, falling exponentials, non-negative coefficients) and only once; an uninitialised one picks nothing. The mass is uniform in its range. t' follows the documented distribution between the limits: with one exponential exactly (probability of t' <= x is the fraction of the integral up to x), with several exponentials up to the numerical tolerance and never above the limit, with the slopes interpolated linearly between the given masses; with the polynomial picker it follows the exponential with the slope at the mass.", "quantifier": "all settings, histories of initialisation, masses, random numbers, and any number of exponentials and mass points", "why_tests_cant": "statement about a distribution; unbounded numbers of exponentials and mass points", "anchors": ["generators/generatorPickerFunctions.cc, generatorPickerFunctions.h", "utilities/libConfigUtils.hpp: checkIfAllVariablesAreThere"]}
{"id": "C68", "title": "Beam and vertex of generated events", "statement": "Loading a beam file succeeds exactly if it has a tree with all needed branches and the settings for the momentum resolution are complete. Read sequentially, the k-th event uses entry (start + k) mod n for every k; read at random, every entry has probability 1/n; a random start is an entry of the file. Without smearing the beam particle has the mass of the beam and the momentum of the entry, the vertex lies on its line; with smearing the values scatter around those of the entry with the covariance of the entry times the square of the scaling factor. With the correction for the momentum resolution the true momentum is drawn from the product of assumed distribution and resolution. Without beam file the vertex is in the target, exponentially distributed along the beam and uniform over its area, and the beam particle is on shell with the thrown momentum and slopes.", "quantifier": "all files, settings, histories of events and random numbers", "why_tests_cant": "unbounded numbers of entries and events; statements about distributions", "anchors": ["generators/beamAndVertexGenerator.cc, beamAndVertexGenerator.h"]}
{"id": "C69", "title": "Using the event generator", "statement": "A reaction file is accepted exactly if it describes a reaction (beam, target, optional beam package, final state, picker function of the documented form), and which reaction is determined by the file. After reading a file and setting up the generator, every event is an event of that reaction: beam, target, recoil and final state are on shell with the particles of the file, energy and momentum are conserved, the vertex is thrown by the beam and vertex generator, mass and t' come from the picker function of the file and satisfy its mass range, the mass lies between threshold and phase-space limit. This also holds after any sequence of calls, with respect to the reaction for which the generator was last set up; set-up and override of the mass range are defined after any history.", "quantifier": "all reaction files, histories of calls, random numbers, beam files", "why_tests_cant": "unbounded histories of calls and events, all files", "anchors": ["generators/generatorManager.cc, generatorManager.h", "generators/diffractivePhaseSpace.cc: event", "generators/generator.h"]}
{"id": "C70", "title": "Valid decay topologies are decay trees", "statement": "For every production vertex and all two-body decay vertices and final-state particles, given in any order and connected only by shared particle objects (none of which comes out of two vertices): an isobar topology is constructed and found consistent exactly if the vertices form a tree of decays of X that uses all of them, each once, with exactly the given final-state particles (whose indices are all unset or 0, 1, ... for each name). Its decay vertices and final-state particles are then listed in the depth-first order of the tree, and after the calculation of momenta every isobar has the sum of the momenta of the final-state particles it decays into.", "quantifier": "all production vertices, decay vertices, final-state particles, in all orders, and all momenta", "why_tests_cant": "unbounded numbers of vertices, all graphs", "anchors": ["decayAmplitude/decayGraph.hpp: addVertex, sortNodesDfs, edge, node", "decayAmplitude/decayTopology.cc: constructDecay, checkTopology", "decayAmplitude/isobarDecayTopology.cc: constructDecay, checkTopology, calcIsobarLzVec"]}
{"id": "C71", "title": "Clones of decay topologies", "statement": "A clone of a valid isobar topology is a valid topology that describes the same decay tree with particles of equal values. A clone without final-state particles has its own production vertex, decay vertices and isobars (and, if wanted, its own beam and target particles), shares the final-state particles, and making it changes no object that existed before; computing the momenta of the isobars of the clone leaves those of the original as they are. A clone with final-state particles has its own final-state particles.", "quantifier": "all valid topologies (any number of vertices, any tree)", "why_tests_cant": "unbounded numbers of vertices, aliasing of shared objects", "anchors": ["decayAmplitude/decayTopology.cc: doClone, cloneNode, cloneEdge", "decayAmplitude/decayGraph.hpp: cloneNode, cloneEdge"]}
{"id": "C72", "title": "Dynamic amplitudes of resonance-fit components", "statement": "A Breit-Wigner component has the value m0 G0/(m0^2 - m^2 - i m0 G(m)), where G(m) is the sum over the open decay modes of the normalised branching ratio times the two-body phase space (break-up momentum and barrier factor, or the given phase-space integral) relative to the nominal mass; it is i at the nominal mass, real below all thresholds, and obeys G0 Im A = G(m) |A|^2; a nominal mass that does not exceed the threshold of an open mode gives no value. Backgrounds are built for exactly one decay channel, are real, are normalised at the largest mass of the used bins, and depend on the bin only through the mean t' of that bin.", "quantifier": "all branching ratios, masses, widths, parameters, bins and mass binnings", "why_tests_cant": "real-valued inputs; formulas and thresholds for every channel", "anchors": ["resonanceFit/components.cc: fixedWidthBreitWigner, dynamicWidthBreitWigner, integralWidthBreitWigner, constantBackground, exponentialBackground, tPrimeDependentBackground, exponentialBackgroundIntegral, tPrimeDependentBackgroundIntegral"]}
{"id": "C73", "title": "Sub-decays are the sub-trees", "statement": "Taking the consistent sub-decay at any decay vertex of a valid isobar decay topology never fails; the result has exactly the decay vertices and final-state particles below that vertex, in depth-first order, and a new production vertex that emits only the particle decaying in it; the original topology and its objects are untouched, and isobar momenta calculated in the sub-decay are the sums over its final-state particles. The topology check accepts it exactly if the final-state particles of the sub-decay are numbered without gaps; the sub-decay from the X decay vertex is always accepted.", "quantifier": "all accepted topologies of any size and all their decay vertices", "why_tests_cant": "unbounded trees, every vertex, every order of the input", "anchors": ["decayAmplitude/isobarDecayTopology.cc: subDecayConsistent, subDecay", "decayAmplitude/decayTopology.cc: subDecay, buildInternalData, setProductionVertex, checkTopology", "decayAmplitude/decayGraph.hpp: dfsSubGraph, addVertex", "decayAmplitude/nonInteractionVertex.cc: nonInteractionVertex"]}
{"id": "C74", "title": "Topologies made by the wave-set generator", "statement": "From a valid template topology the generator makes topologies without failing, whatever isobars and mass dependences are tried: every wave is a valid topology with the decay tree and the final-state particle objects of the template, its isobars have the properties chosen for their vertex, and its production vertex is a copy of that of the template that emits the X of the wave. No two waves share a decay vertex, an isobar or a production vertex, no wave uses one of the template, and the template and its objects are unchanged. Every combination is made: the number of waves is the product over the vertices of the number of choices, for every pair of daughter decays.", "quantifier": "all valid templates of any size and shape, all choices of isobars and mass dependences", "why_tests_cant": "unbounded trees, unbounded combinations, aliasing of shared objects", "anchors": ["decayAmplitude/waveSetGenerator.cc: generateWaveSet, createNewDecayTopology, setMassDepsForDecayTopology", "decayAmplitude/isobarDecayTopology.cc: subDecay, joinDaughterDecays", "decayAmplitude/decayTopology.cc: addDecay, doClone, setProductionVertex", "decayAmplitude/decayGraph.hpp: addGraph"]}
{"id": "C75", "title": "Events in text files are read as written", "statement": "The reading of a text file of events succeeds with given events and names exactly if the file is a sequence of complete events - number of particles, a line for the beam, one for each decay particle - with known particles, matching charges, readable numbers, and the same particles in every event (the file may end after the number of particles of an event). An event with other particles ends the program; with a limit exactly the first events are read whatever follows. Writing a tree with known particles and reading the file gives the same events, in order, with the names and the momenta as printed. Translating a particle number to a name and back is the identity for every number of the table.", "quantifier": "all files (any lines and words), all trees, all numbers of events and particles", "why_tests_cant": "unbounded files; equivalence in both directions, including every malformed file", "anchors": ["decayAmplitude/evtTreeHelper.cc: fillTreeFromEvt, writeEvtFromTree, checkParticleCharge, openRootEvtFiles, processTree", "particleData/particleDataTable.cc: particleNameFromGeantId, geantIdAndChargeFromParticleName"]}
{"id": "C76", "title": "Importance sampling draws from phase space times intensity", "statement": "For every number of particles and every kinematically possible point above threshold, the product of prior and likelihood that the sampler reports is n-body phase space in the subsystem masses times the prior for the mass times the intensity of the model for a decay of an X at rest with exactly these masses; impossible points have probability 0. Every possible decay with an X mass in the picker's range belongs to a point within the limits of the parameters, which cut nothing away. An event is stored exactly if the file is ready, the pre-run is over and the iteration is a multiple of the lag; a stored event is a decay in the laboratory, conserving momentum and with the masses of the particles, of a system X with the mass of the point and the picked t' relative to the beam, and it is the decay the model was asked about, seen from the Gottfried-Jackson frame.", "quantifier": "all numbers of particles, masses, points, models, beams, t', iterations", "why_tests_cant": "continuous domain, any number of particles; equality of densities and of kinematics for all values", "anchors": ["generators/importanceSampler.cc: importanceSampler, LogAPrioriProbability, LogLikelihood, CalculateObservables, getProductionKinematics, initializeNBodyPhaseSpace", "decayAmplitude/isobarAmplitude.cc: gjTransform", "generators/diffractivePhaseSpace.cc: calculateXSystemLab"]}
{"id": "C77", "title": "A written resonance-fit configuration can be read back", "statement": "If a configuration of a resonance-model fit was read, then for all values and errors of the parameters, couplings and branchings, every fit quality and every release order, the document written for them can be loaded (anchors and aliases of wave sets and anchor waves included) and read, and what is read is the same configuration: the same bins, files, waves, mass limits (a negative limit is the default), systematics, anchors, components with types, channels, constants, integrals, limits, steps and fix flags, the same final-state mass dependence and the same model, with the written values as start values, the written errors, quality and release order; the next fit starts exactly at the written values. This needs a final-state mass dependence (without one the writer dereferences a null pointer) and errors that are not infinite where infinity is written as text.", "quantifier": "all documents that can be read, all fit results, all numbers of bins, waves, components, channels", "why_tests_cant": "quantifies over all configurations of any size and all real values; a file that is written and cannot be read back is noticed only after the fit", "anchors": ["resonanceFit/resonanceFitReadConfig.cc: readFitQuality, readFreeParameters, readInput, readModel", "resonanceFit/resonanceFitWriteConfig.cc: writeConfig", "resonanceFit/resonanceFit.cc: read"]}
{"id": "C78", "title": "A resonance-model fit does the steps of its release order, and an interrupted fit continues where it stopped", "statement": "In each step of the release order the minimizer is given every number of the model once, in the order of the parameter array: starting at the value of the last step, free exactly if a word of the step names it (`*`, `coupling`, `branching`, a bin, a component, a parameter or a full name; parameters of the final-state mass dependence always) and the configuration does not fix it, with the step size and limits of the configuration. The steps are done in order, each once, with the function calls the earlier ones left, until the order or the budget is used up; the values and errors of the last step are the result. A number that no step that was done releases, and in particular a fixed parameter, keeps its value; the coupling of an anchor wave stays real; parameters that start within their limits stay there. The quality says `continue` exactly if the budget was used up, and reports the Hessian matrix exactly if it was calculated last. The configuration that is written afterwards can be read, begins with the last minimization that was done, and the variables of all its steps start where the fit stopped.", "quantifier": "all configurations, release orders, budgets, start values, and all minimizers that keep fixed variables and respect limits", "why_tests_cant": "quantifies over the answers of an arbitrary minimizer and all interruption points", "anchors": ["resonanceFit/minimizerRoot.cc: minimize, initParameters", "resonanceFit/resonanceFitExe.cc: main", "resonanceFit/resonanceFitWriteConfig.cc: writeConfig"]}
{"id": "C79", "title": "Tables of Clebsch-Gordan coefficients are exact, whatever was requested before", "statement": "For all integer spins with |J1-J2| <= J <= J1+J2, a request for the coefficients (J1 J2 | J), after any sequence of such requests, returns a table of (2 J1 + 1)(2 J2 + 1) fractions. The element at the place that belongs to (m1, m2) is the square of the Clebsch-Gordan coefficient of Racah's closed formula with the sign of the coefficient; it is zero if |m1 + m2| > J; the squares with the same m1 + m2 add up to one; different (m1, m2) have different places; the values agree with the coefficients of the amplitude library (C03). A repeated request returns the same table. Outside the triangle condition the table is not meaningful: only a message is printed.", "quantifier": "all spins, projections and histories of requests", "why_tests_cant": "infinitely many spins; the recursion takes square roots of fractions at every element and ends the program if one is not exact", "anchors": ["relativisticAmpCorrections/ClebschGordanBox.cc: GetCG, ClebschGordan", "relativisticAmpCorrections/ClebschGordanBox.h: CGIndex"]}
{"id": "C80", "title": "Spin wave functions of the relativistic corrections", "statement": "For every spin J the wave function object has one term for every sequence of J helicities (-1, 0, 1), with the sum as projection, and the square of its component: 2^zeros (J+M)! (J-M)! / (2J)!. For every projection the components are normalized, they do not depend on the order of the helicities, the contraction of two indices vanishes, and the wave function of spin J+1 is the coupling of that of spin J with a polarization vector by Clebsch-Gordan coefficients. For an orbital angular momentum the components are those of the spin-L part of the product of L unit vectors along the momentum. The calculation never ends the program.", "quantifier": "all spins, all projections, all sequences of helicities", "why_tests_cant": "infinitely many spins; 3^J components each", "anchors": ["relativisticAmpCorrections/TSpinWaveFunction.cc: TSpinWaveFunction", "relativisticAmpCorrections/TFracNum.cc: am0_to_J, cm0_sub_ell_2"]}
{"id": "C81", "title": "Covariant amplitudes are calculated completely and exactly", "statement": "For spins S1, S2 coupled to S, orbital angular momentum L, total spin J, projection delta and every scheme of contractions whose numbers of pairs fit the ranks of the tensors, the amplitude object is built without ending the program; its terms have no indices left, prefactors that are not zero, powers of the Lorentz factors that are not negative, and no two terms have the same powers. For projections >= 0 and at most two contractions between the two spins, the sum of the terms (square root of the prefactor times the powers of the Lorentz factors) is, for all Lorentz factors, the contraction of the tensors built from polarization vectors, spin wave functions and Clebsch-Gordan coefficients, summed over all helicities (up to a factor i where a triple product is left over). A number of contractions that does not fit ends the program. With three or more contractions between the spins a term whose product vanishes may be kept.", "quantifier": "all spins, projections, schemes of contractions and Lorentz factors", "why_tests_cant": "infinitely many spins and schemes; 3^(S1+S2+L+J) products of components per scheme", "anchors": ["relativisticAmpCorrections/TLSAmpl.cc: TLSAmpl", "relativisticAmpCorrections/TJwfTensor.cc: SpinInnerContraction, LSContraction, LJContraction", "relativisticAmpCorrections/TSpinWaveFunction.cc: GetTensorSum, GetSpinCoupledTensorSum"]}
{"id": "C82", "title": "The amplitudes of a decay channel are complete", "statement": "For all spins and parities of a decaying particle and two decay particles, the calculation of the LS amplitudes ends regularly. The list contains, each once and with its terms, exactly the amplitudes that conservation of angular momentum and parity and the possible contractions of the tensors allow and that do not vanish: every L, every coupled spin S, every projection from 0 to min(S, J), every complete scheme of contractions. With at most two contractions between the spins an allowed amplitude is left out if and only if the covariant amplitude vanishes for all Lorentz factors. Amplitudes with the same L and S have the same number if and only if they have the same contraction, and the numbers of each L and S count from 1.", "quantifier": "all spins and parities", "why_tests_cant": "infinitely many channels; the number of schemes grows with the spins, and a missing one is not noticed in the result", "anchors": ["relativisticAmpCorrections/TJSS.cc: CalcAmpl, checkSelectionRules, getContractionRank", "relativisticAmpCorrections/TLSAmpl.cc: CheckContraction"]}
{"id": "C83", "title": "Helicity-coupling amplitudes are complete, exact and normalized", "statement": "For all spins and parities the helicity-coupling amplitudes of a decay channel are calculated. A pair of helicities (lambda >= 0; for lambda = 0 nu >= 0) is left out if and only if no LS amplitude couples to it; otherwise its contributions are those of the LS amplitudes with projection lambda-nu up to the sign and a Clebsch-Gordan coefficient that is not zero, each once and in order. A contribution is the Clebsch-Gordan coefficient of the helicities times the LS amplitude (the covariant amplitude with projection lambda-nu, also if this is negative, with at most two contractions between the spins), for all Lorentz factors. Its terms add up to one for Lorentz factors one, except if the amplitude vanishes there, which is marked. The helicities that are not calculated follow by the sign etaJ eta1 eta2 (-1)^(J-S1-S2).", "quantifier": "all spins, parities, helicities and Lorentz factors", "why_tests_cant": "infinitely many channels; equality of functions of two real variables", "anchors": ["relativisticAmpCorrections/TJSS.cc: CalcAmpl", "relativisticAmpCorrections/TFhh.cc: TFhh", "relativisticAmpCorrections/TLSContrib.cc: TLSContrib"]}
{"id": "C84", "title": "Likelihood values from a CUDA device are those of the CPU, for every device, grid and order of threads", "statement": "With CUDA enabled, for every device that can run the kernels with blocks of one warp and every data set within the size limits, initialisation succeeds, and every later function call, after any history of function and gradient calls, returns the same value as the calculation on the CPU, whatever the number of multiprocessors, the warp size, the block sizes and the order in which the threads make their memory accesses. Device memory is after the call what it was before; the only array that stays allocated is that of the decay amplitudes.", "quantifier": "all devices, data sets, ranks, wave sets, parameter arrays, thread interleavings and histories of calls", "why_tests_cant": "quantifies over thread schedules and hardware; there is no CUDA device in a test", "anchors": ["cuda/likelihoodKernel.cu: sumKernel, logLikelihoodKernel, compensatedSum", "cuda/likelihoodInterface.cu: logLikelihood, cascadedKernelSum, estimateOptimumKernelGrid", "partialWaveFit/pwaLikelihood.cc: DoEval, init"]}
{"id": "C85", "title": "Gradients from a CUDA device are the derivatives of its likelihood values", "statement": "With CUDA enabled, under the conditions of C84, every gradient call returns the gradient of the calculation on the CPU, for every order of the threads, and leaves device memory unchanged. The components returned by the device are the partial derivatives of the values returned by the device.", "quantifier": "all devices, data sets, parameter arrays, thread interleavings and histories of calls", "why_tests_cant": "quantifies over thread schedules, hardware and real functions", "anchors": ["cuda/likelihoodKernel.cu: logLikelihoodDerivFirstTermKernel, logLikelihoodDerivKernel, logLikelihoodDerivFlatKernel, sumDerivativesKernel", "cuda/likelihoodInterface.cu: logLikelihoodDeriv", "partialWaveFit/pwaLikelihood.cc: Gradient"]}
{"id": "C86", "title": "Loading data onto a CUDA device: launch grids, layouts, limits, ownership", "statement": "The grid chosen for a kernel can be launched, has at least the requested number of threads and less than one block more, in whole warps. Amplitudes given event by event are reshuffled correctly. The device holds one data set per process: initialising a second likelihood object of the same shape makes the first one silently sum over the events of the second, and the memory of the first is lost. Closing the device releases all memory. From 2^28 amplitudes on only the remainder modulo 2^28 is loaded, without an error. The instantiation for float cannot load amplitudes. Without an initialised device no value is returned.", "quantifier": "all devices, data sets, orders of initialisation", "why_tests_cant": "limits of 2^28 amplitudes and the state shared by all objects do not show up in small tests", "anchors": ["cuda/likelihoodInterface.cu: estimateOptimumKernelGrid, loadDecayAmps, init, closeCudaDevice", "cuda/complex.cuh: complexStorage", "partialWaveFit/pwaLikelihood.cc: init, enableCuda"]}
{"id": "C87", "title": "Integral matrices can be taken out of fit results and put back", "statement": "Stripping the integrals from a file of fit results leaves, for every entry, everything else unchanged (also the covariance unless its removal is asked for). Adding integrals gives every entry, in order, the integrals of normalised amplitudes of exactly its waves: divided by the roots of the normalisation integrals per event, zero between waves of different reflectivity, one for the flat wave; nothing else changes. A result from which the integrals were stripped is restored completely by adding the matrices that the likelihood of the fit was made with. Integrals that are present are not replaced unless this is asked for, and a flat wave that is not the last wave is refused; then no tree is written. The acceptance of the flat wave is right for the first entry of the file only: for all later entries 1 is stored.", "quantifier": "all files of fit results, wave sets, integral matrices and fits", "why_tests_cant": "infinitely many fits and matrices; files with more than one entry, whose acceptance is wrong, look the same as correct ones", "anchors": ["partialWaveFit/addIntegralsToFitResult.cc: main", "partialWaveFit/stripIntegralsFromFitResult.cc: main", "partialWaveFit/fitResult.cc: fill", "partialWaveFit/pwaLikelihood.cc: finishInit, getIntegralMatrices"]}
{"id": "C88", "title": "Several attempts of one fit: seeds, order of the results, matrices of the best ones only", "statement": "A fit with several attempts returns one result per attempt in the order of the seeds. Unless the seed is 0, the seeds are different from each other, and the loop that draws them ends if and only if the random numbers take enough different values. With keepMatricesOnlyOfBest exactly two results have matrices: the first with the smallest value, and the first with the smallest value among those that converged; they are then what the fit would have stored itself, with the integrals of the likelihood and, as covariance matrix, the inverse of the Hessian at the parameters of that result; all other results are those of the fits, unchanged. If no fit converged, the last result gets matrices, however bad it is; without attempts the call ends in an IndexError.", "quantifier": "all seeds, numbers of attempts, likelihoods and outcomes of the fits", "why_tests_cant": "the outcome of a fit is not under control of a test, and whether a covariance matrix belongs to the stored parameters must hold for every likelihood", "anchors": ["pyInterface/module/_fit.py: _pwaFit, _addMatrices, addCovarianceMatrix", "partialWaveFit/fitResult.cc: fill, fitParameter", "partialWaveFit/pwaLikelihood.cc: Hessian, CovarianceMatrix"]}
{"id": "C89", "title": "Integral files: integration, merging and integration on the fly", "statement": "calcIntegrals writes a file exactly if the bin is given, the event files differ from each other, every event file has amplitude files of the same waves with the same key files and number of events (and enough weights), no amplitude hash occurs twice, and the key files describe the waves. The integral of two waves in the file is then the sum over all events of all files inside the bin (lower boundary included, upper one not), of weight times the product of the amplitudes summed over incoherent sub-amplitudes, divided by the number of these events; the order of the dictionaries does not matter; the hash belongs to the matrix, and the lists of key files, event metadata, amplitude hashes and the bin are those of the input. Merging two integral files succeeds exactly if waves, version and key files agree and no amplitude hash or event file is in both, and gives the integrals of all files together with the enclosing bin; a refused merge leaves the integrals, their hash, key files and version unchanged. The integration on the fly gives the same integrals as the integration of amplitude files if the amplitude files hold the amplitudes it calculates.", "quantifier": "all binnings, event files, amplitude files, weights, waves, event ranges and pairs of integral files", "why_tests_cant": "sums over arbitrary samples and bins, and acceptance or refusal for every combination of metadata, cannot be enumerated", "anchors": ["pyInterface/module/_integrals.py: calcIntegrals", "pyInterface/module/_integralsOnTheFly.py: calcIntegralsOnTheFly", "decayAmplitude/ampIntegralMatrixMetadata.cc: mergeIntegralMatrix, writeToFile, check, setHash, addAmplitudeHash", "decayAmplitude/ampIntegralMatrix.cc: integrate, operator +=", "storageFormats/eventMetadata.cc: inBoundaries"]}
{"id": "C90", "title": "A stored fit can be evaluated again", "statement": "From a file with exactly one converged fit result and the amplitude and integral files of the fit, likelihoodPointCalculator and calcCovMatrixForFitResult set up, without error, a likelihood with the same waves, rank, amplitudes, integrals and normalisation as the one that was fitted; the printed value is the one stored with the fit, for both fit functions. For a mass bin with positive centre a parameter is fixed again exactly if all production amplitudes of its wave are zero in the result or the wave is empty; so every parameter that was fixed in the fit is fixed again, and exactly those if no wave with free parameters ended at zero. If the Hessian of the free parameters can be inverted the written result has this inverse as covariance matrix and is otherwise unchanged, also if there were empty waves. Files with several attempts or with a fit that has not converged are refused.", "quantifier": "all wave lists, ranks, amplitudes, integrals, thresholds, fit parameters and bins", "why_tests_cant": "the statement compares two likelihoods, set up in different ways, for every wave list and every point of the parameter space", "anchors": ["pyInterface/module/utils/_waveDescThresUtils.py: getWaveDescThresFromFitResult", "pyInterface/module/utils/_fitTreeUtils.py: getFitResultFromFile", "pyInterface/module/_likelihood.py: initLikelihood", "pyInterface/scripts/likelihoodPointCalculator.py", "pyInterface/scripts/calcCovMatrixForFitResult.py", "pyInterface/module/_fit.py: addCovarianceMatrix"]}
{"id": "C91", "title": "Scripts use the best converged fit of the right mass bin and the waves of the wave list", "statement": "Asked for a mass, the library returns from a fit-result file the converged result whose mass bin is nearest to it, among several the one with the smallest negative log-likelihood, among those the first; without a mass the best converged result; None iff nothing has converged. The dictionary of best results has one entry per mass centre, which is the best converged result of a bin with that centre; nothing is lost if the centres differ. A wave-list file gives exactly the waves of its lines in order, with their thresholds; comments are skipped; a written list is read back.", "quantifier": "all lists of results in a tree (any masses, likelihoods, ties, convergence flags), all requested masses, all bins and orders of dictionaries, all texts of wave lists", "why_tests_cant": "the choice depends on the order of entries, ties and dictionary order; texts of wave lists are unbounded", "anchors": ["pyInterface/module/utils/_fitTreeUtils.py: getBestFitResultFromFile, getBestFitResultsFromFile", "pyInterface/module/utils/_waveDescThresUtils.py: getWaveDescThresFromWaveList", "partialWaveFit/fitResult.cc: getFitResultsFromFilesInMultibins"]}
{"id": "C92", "title": "Amplitude files are complete and right, or cannot be read", "statement": "Calculating the amplitudes of a wave for an event file gives one amplitude per event in the order of the events, evaluated with every momentum given to the particle of its name, or nothing at all if one event cannot be read. Whatever calculations were done, interrupted at any point, repeated or deleted before: an amplitude file that can be opened for a wave has the complete and right amplitudes of a calculation with this file name, the metadata of its events and a valid hash. An existing file is never changed. The script calculates every file that is missing and possible, independent of failures of others; running it again changes nothing.", "quantifier": "all event files, waves, amplitudes; all histories of calculations, crash points and deletions; all lists of tasks", "why_tests_cant": "crash points and histories are unbounded; a test sees one interruption", "anchors": ["highLevelInterface/calcAmplitude.cc: calcAmplitude", "pyInterface/module/_amplitude.py: calcAmplitude", "pyInterface/scripts/calcAmplitudes.py", "storageFormats/amplitudeFileWriter.cc", "storageFormats/amplitudeMetadata.cc: readAmplitudeFile, Write"]}
{"id": "C93", "title": "De-weighting turns weights into events without bias", "statement": "The file written by deWeight has the metadata of the input without the variable weight and, in the same order, exactly the events whose random number times the adjusted largest weight is below their weight; its hash is valid. With independent uniform random numbers the events are kept independently with probability weight over adjusted largest weight, so with a factor of at least one and non-negative weights the expectation of every sum over the remaining events is the weighted sum over the input over the adjusted largest weight. genPseudoData writes all generated events in order with the intensity of the model as weight; stopped after any number of events greater than zero it leaves a valid file with the first of them; de-weighting it gives back mass and t' as generated.", "quantifier": "all event files, weights, factors, sequences of random numbers and points of interruption", "why_tests_cant": "a statement about a probability distribution and about all numbers of events; a test sees one sequence of random numbers", "anchors": ["pyInterface/scripts/deWeight.py", "pyInterface/scripts/genPseudoData.py", "storageFormats/eventFileWriter.cc"]}
{"id": "C94", "title": "Event files survive the conversion to text and back", "statement": "convertEvtToTree writes an event file exactly if the text is a non-empty sequence of complete events up to its end or an empty line, each with the beam of the first event and, of every particle name, at least as many as the first event; the file then has one entry per event in order, the momenta in the order of the particles of the first event, those of the same particle in the order of the text, and a valid hash. An event with the same particles in another order loses nothing. A text that ends within an event, or with an event that misses a particle, gives no file. A file with one beam particle and known particles that is converted to text and back has the same particles and momenta in the same order and, without additional variables, the same content hash.", "quantifier": "all texts and all event files", "why_tests_cant": "texts and orders of particles are unbounded; the equivalence covers malformed texts as well", "anchors": ["pyInterface/scripts/convertEvtToTree.py: EventFile.getEvent, Event.reorder", "pyInterface/scripts/convertTreeToEvt.py: writeParticleToFile", "particleData/particleDataTable.cc: particleNameFromGeantId, geantIdFromParticleName", "storageFormats/eventFileWriter.cc"]}
{"id": "C95", "title": "What it means that a key file passed all tests", "statement": "checkKeyFile ends with status 0 exactly if every key file gives at least one wave and no wave that could be compared with test data violates a test: an amplitude that vanishes, a component that exceeds that of the space-inverted or reflected event by more than the tolerance, or one with the wrong relative sign. A wave in which parity is conserved passes for all events with amplitudes that do not vanish, in both formalisms; a wave with the opposite eigenvalue is found. Waves that cannot be built, are inconsistent, or cannot be compared count as passed; otherwise every error is listed with its files.", "quantifier": "all lists of key files and waves, all amplitudes, lists of events, limits and tolerances (from -1)", "why_tests_cant": "the amplitudes are arbitrary functions of the event; soundness and completeness of the checks range over all of them", "anchors": ["decayAmplitude/checkKeyFile.cc: testAmplitude, main", "decayAmplitude/evtTreeHelper.cc: processTree", "decayAmplitude/decayTopology.cc: spaceInvEigenValue, reflectionEigenValue"]}
{"id": "C96", "title": "Labelled amplitudes in trees stay consistent", "statement": "Whatever sequence of calls a program makes on amplitude leaves (new, clear, define labels, set, add, subtract, scale, store and read): the labels are different from each other, there is one amplitude per label, and looking up a label gives its position; storing and reading changes nothing. Adding and subtracting works label by label and is refused exactly for different labels; scaling multiplies every amplitude and is undone by the division; a sum of leaves with the same labels is the sum for every label. Comparing two leaves with as many amplitudes compares all of them.", "quantifier": "all sequences of calls, labels, amplitudes and factors (complex numbers without rounding)", "why_tests_cant": "the invariant ranges over all histories of an object; labels and their number are unbounded", "anchors": ["storageFormats/amplitudeTreeLeaf.cc: defineIncohSubAmps, operator +=, rebuildSubAmpLabelMap", "storageFormats/amplitudeTreeLeaf.h: operator ==, setIncohSubAmp, incohSubAmp"]}
{"id": "C97", "title": "Phase-space Monte Carlo files have the events that were made", "statement": "The file of generatePhaseSpace is, in all cases, also if the script is interrupted at any point, a valid event file of type generated with a valid hash, the particles of the generator and the limits of mass and t' under their names. It has the events in the order in which they were made: in terms of the attempts of the generator, the successful ones among the first maxAttempts attempts, but not more than asked for; a maximum smaller than the number of events is ignored. The automatic file name has the first free number.", "quantifier": "all sequences of attempts and events, options, and points of interruption", "why_tests_cant": "sequences of attempts and points of interruption are unbounded", "anchors": ["pyInterface/scripts/generatePhaseSpace.py", "storageFormats/eventFileWriter.cc"]}
{"id": "C98", "title": "Arrays of several bins are combined without loss", "statement": "When the data of all bins of a resonance fit are read, bin after bin, into common arrays, element [b][i]... of the result is element [i]... of the array of bin b, and the default (zero, an empty name, an empty matrix) where this bin has fewer elements than others; every dimension is the largest of all bins; no access is out of range. This holds for arrays of any number of dimensions and for covariance matrices of different sizes. Setting one part leaves all other parts unchanged; arrays with other numbers of dimensions, and sizes other than expected, end the program.", "quantifier": "all numbers of bins, numbers and sizes of dimensions (zero included), elements, sizes of matrices", "why_tests_cant": "shapes and numbers of dimensions are unbounded; the order in which bins grow the arrays matters", "anchors": ["resonanceFit/resonanceFitHelper.h: adjustSize, adjustSizeAndSet, copyMultiArray, checkSize", "resonanceFit/resonanceFitReadData.cc: readIn"]}
{"id": "C99", "title": "The plots of a resonance fit show the results that exist, and its phases without jumps", "statement": "createPlots plots every wave of every bin and every pair of waves of it once, in a directory of the bin (the main one if there is one bin), the sums over the bins if there are several of the same structure, and the final-state mass dependence in the directory of every bin, unless it has one bin only and all bins have the same structure (C105: it always has as many as the fit). The data of a wave are shown in exactly the mass bins where something of its intensity, its spin-density matrix or its phases is not zero, in order, with the center of the mass bin, value and error; those of a pair where both waves have results; a band of systematics is drawn as its middle and half of its width; the sums add the intensities of all bins and their squared errors. The curves go through the centers of the mass bins in their range and the given number of points between them, which are equally spaced for mass bins of the same width; the phase space is scaled to half of the height of the plot. Every phase that is drawn is the phase of the model or of the data up to whole turns: the curve follows a continuous phase as long as it stays within five turns of the principal value, and the data are moved with their systematics next to the curve. (Found: systematics are moved at the index of the data, so that a wrong point is moved if the mass bins are different ones; systematics of a pair look at the results instead of the systematics of the second wave and draw an empty band; a phase that turns further than five turns jumps back; the error bars in mass are 0/0 for a single mass bin.)", "quantifier": "all numbers of bins, mass bins, waves and extra points, all values and errors, all curves, all ranges", "why_tests_cant": "the index of a point depends on all mass bins that were left out before it, and a phase on all points before it; plots are looked at, not compared", "anchors": ["resonanceFit/resonanceFitPlot.cc: createPlots, createPlotsWave, createPlotsWaveSum, createPlotsWavePair, createPlotsFsmd, zeroWaveForPlotting, zeroWaveForSysPlotting"]}
{"id": "C100", "title": "The weights of a resonance fit are the inverse of the covariances that are used", "statement": "When the data of a resonance fit are prepared, the covariance matrix of a mass bin is replaced by a matrix that is zero in all rows and columns but those of the parts that are fitted - for spin-density matrices the real parts of all pairs of waves that are in their mass range and the imaginary parts of pairs of two different waves, for production amplitudes the real parts of these waves and the imaginary parts of all but the anchor wave - and on these rows is the inverse of the covariance matrix of exactly these parts, with the covariances that are not asked for (all but the variances; all but those of one complex number; none) set to zero. If the anchor wave is not real the amplitudes are rotated such that it is real and positive, which does not change the spin-density matrix, and the covariances are propagated linearly with the derivatives of the rotated amplitudes. A mass bin is refused if and only if nothing is stored for a wave that is fitted in it or, for amplitudes, for the anchor wave, or if another wave is real; mass bins outside the range of all waves have no matrix. (Found: a refused mass bin ends the preparation but not the fit: the matrices of all later mass bins and bins stay the covariances that were read and are used as weights.)", "quantifier": "all numbers of waves and mass bins, all sets of waves that are left out, all anchor waves, all amplitudes and covariances that can be inverted, all three choices of covariances", "why_tests_cant": "rows are counted by several nested loops with two counters of waves that were left out; the matrices are only used in a sum of squares where a wrong row is not seen", "anchors": ["resonanceFit/resonanceFitReadData.cc: prepareProductionAmplitudes, prepareSpinDensityMatrices", "resonanceFit/function.h: useCovarianceMatrix"]}
{"id": "C101", "title": "Results of fits are read for the right mass bin and wave, or not at all", "statement": "A file of results is used in a resonance fit if and only if it has entries, one for every mass bin, and the mass bins are equidistant; the mass bins are then the centers in ascending order, and everything of a mass bin is read from the entry with this center, whatever the order of the entries. Two results for one mass bin, or other distances, end the program. A result is read if and only if it has a production amplitude of rank zero for every wave of the fit; every wave gets the amplitude with its own name, and the covariance matrix of the spin-density matrix has the scaled covariances of the elements in their rows and zeros between different elements. Files of systematics need exactly the mass bins of the data, once; the band of a mass bin goes from the smallest to the largest value of this mass bin in the data and all files, where phases are moved by at most one turn to be closest to the data. (Found: for a tree without entries element -1 of an empty array is read.)", "quantifier": "all numbers and orders of entries, waves, production amplitudes, files; all centers and values", "why_tests_cant": "entries, waves and production amplitudes are in any order, and a wrong assignment is not seen in the results", "anchors": ["resonanceFit/resonanceFitReadData.cc: readFitResultMassBins, checkFitResultMassBins, readFitResultMatrices, readInFile, readSystematicsFile, readSystematicsFiles, readInFiles"]}
{"id": "C102", "title": "What a resonance fit minimizes is generalized least squares", "statement": "The value that a resonance fit minimizes is, after any sequence of earlier evaluations, the sum over bins and mass bins of D^T C^-1 D: D are real and imaginary parts of the differences of the model with these parameters to the data, of exactly the elements of the spin-density matrix (or the production amplitudes, without the imaginary part of the anchor wave) that are fitted in this mass bin, and C is their covariance matrix as it was read (for production amplitudes that are not real in the anchor wave: propagated to the rotated ones), with the covariances that are not to be used set to zero. In particular no weight belongs to another pair of waves than the two differences it is multiplied with.", "quantifier": "all models that can be read, numbers of bins, mass bins and waves, limits, covariances, parameters and histories of evaluations", "why_tests_cant": "three pieces of code number the parts of the matrices (when they are inverted, cut into blocks, and summed up); a wrong block is also positive and only biases the fit", "anchors": ["resonanceFit/data.cc: data::data", "resonanceFit/function.cc: chiSquareSpinDensityMatrix, chiSquareProductionAmplitudes", "resonanceFit/resonanceFitReadData.cc: prepareSpinDensityMatrices, prepareProductionAmplitudes"]}
{"id": "C103", "title": "Every mass and every pair of angles of an event is plotted once", "statement": "For the plots of masses and angles, each combination of final-state particles that symmetrization puts to the places of an isobar enters the histogram of its mass exactly once per event, each assignment of particles to its two daughters enters the histograms of its angles exactly once, and the number of entries per event in the title of the histogram is the number of such combinations. The symmetrizations are all products of an isospin and a Bose permutation, and their factors are multiplied. (The histograms of two isobars do not have the property: each is filled for every permutation, whatever its title says.)", "quantifier": "all topologies (index lists of vertices), numbers and orders of permutations, and isobar combinations", "why_tests_cant": "which of the equivalent permutations is chosen depends on the order of a dictionary; a doubled entry has the same shape as the true distribution", "anchors": ["pyInterface/scripts/plotAngles.py: combineSyms, getPermutations, getPermutationsForIsobarCombinations"]}
{"id": "C104", "title": "Mass shapes of isobars are those of a decay at rest", "statement": "getMassShapes gives one number for each decay vertex of a topology, each vertex before those of its daughters: above threshold it is the amplitude of the mass dependence of the vertex (times the barrier factor if wanted) for a parent of this mass at rest that decays to two back-to-back daughters with their nominal masses that conserve energy, between the difference and the sum of the masses of the daughters it is zero. The numbers do not depend on what the topology was used for before, although the calculation stores its momenta in the particles of the topology.", "quantifier": "all topologies, masses of daughters, mass dependences, masses and earlier states of the particles", "why_tests_cant": "the state of the particles comes from an unbounded history of calls on the same topology; the kinematic identities hold for all real masses", "anchors": ["highLevelInterface/getMassShapes.cc: getMassShapes, getSingleMassShape, getMassShapesRecursive"]}
{"id": "C105", "title": "Sums over the bins of a resonance fit are plotted of what is the same in all of them", "statement": "For every model that can be read from a configuration, the sum over the bins is plotted for every wave exactly if there are several bins and all of them have the same waves in the same order, the same mass bins (number and centers) and the same anchor wave and component in the configuration; such a sum is never refused. The components and channels of the first bin with which a sum is labelled are in every bin those that decay to this wave, with the index of this wave in the bin: a model uses for a wave of a bin exactly the channels that decay to this wave in this bin, although only names are compared. (Found: a common final-state mass dependence is plotted in every bin and never once, because the number that is compared with one is the number of bins; the mapping of a bin with fewer waves is found to be equal to that of the first bin, so that only the comparison of the data prevents a sum; bins that differ only in the anchor have no sums although nothing that is summed depends on it.)", "quantifier": "all configurations with any number of bins, waves, mass bins, components and channels", "why_tests_cant": "the guard is a conjunction of comparisons over all bins of two different objects, and the plotted labels come from the first bin only", "anchors": ["resonanceFit/data.cc: baseData::binsHaveEqualStructure", "resonanceFit/model.cc: model::initMapping, isMappingEqualInAllBins", "resonanceFit/resonanceFitPlot.cc: createPlots, createPlotsWaveSum", "resonanceFit/fsmd.cc: fsmd::fsmd"]}
{"id": "C106", "title": "Slices of the likelihood along eigenvectors are what their pictures say", "statement": "For a stored, converged fit with a symmetric covariance matrix, eigenvectorLikelihoodSlices draws for every free parameter one slice of the likelihood of the fit through the parameters of the fit, relative to the value there, along an eigenvector of length 1 of the covariance matrix: 101 evenly spaced points up to one standard deviation in both directions; fixed parameters are not varied. The derivative of a slice at the fit is the gradient times the direction, its second derivative the Hessian twice times the direction; if the covariance matrix is the inverse of the Hessian and the gradient vanishes, slice and drawn parabola have the same value, slope and curvature there, their difference is smaller than every multiple of the squared distance, and for a positive variance the fit is a strict local minimum of the slice (for a negative one a maximum). The second parabola is that of an eigenvalue of the inverse of the Hessian. A covariance matrix with a negative eigenvalue ends the script with an exception. (Found: the parabolas of the two covariance matrices are paired by the order of the eigenvalues, not by direction.)", "quantifier": "all likelihoods that can be set up (waves, ranks, amplitudes, integrals, priors), parameters, symmetric covariance matrices, directions", "why_tests_cant": "equality of derivatives holds for functions of any number of parameters; a test can only compare numbers at points, with rounding", "anchors": ["pyInterface/scripts/eigenvectorLikelihoodSlices.py", "partialWaveFit/pwaLikelihood.cc: pwaLikelihood::HessianEigenVectors, CovarianceMatrix, Hessian, Gradient", "pyInterface/package/utils/_fitTreeUtils.py: getFitResultFromFile", "pyInterface/package/_likelihood.py: initLikelihood"]}
{"id": "C107", "title": "Data of a resonance fit are accepted only if all arrays fit together, and can then be read everywhere", "statement": "The object with the data of a resonance fit is constructed exactly if there is at least one bin, wave and mass bin, every array has one entry per bin and is as large as the largest numbers of waves and mass bins, and every weight matrix of a mass bin is either missing or square with 2 rows per wave (amplitudes) or 2 rows per pair of waves (spin-density matrix); otherwise the program ends. An object that is constructed has all arguments unchanged, and for every pair of waves the block of the weight matrix with the rows of this pair; reading it at any bin, mass bin and waves of that bin stays inside of all arrays. (Found: a mass bin without matrix is accepted and gets weights of zero, it silently does not contribute to a fit without full covariance matrices; waves with an empty list of numbers of mass bins read the largest element of an empty list before the check that would reject them.)", "quantifier": "all numbers of bins, waves and mass bins per bin, all arrays and matrices of any size", "why_tests_cant": "there are sixteen arrays and one matrix per mass bin and bin that may be wrong, in unbounded numbers and sizes", "anchors": ["resonanceFit/data.cc: baseData::baseData, data::data", "resonanceFit/data.h", "resonanceFit/resonanceFitHelper.h: checkSize"]}
{"id": "C108", "title": "The anchor wave of every bin is the wave of that bin with the configured name", "statement": "Reading the data of a resonance fit finds for every bin the index of the first wave of this bin with the name of its anchor wave, if there is exactly one name per bin and every bin has such a wave; otherwise the program ends. The names of other bins, and the empty names that fill the array behind the waves of a smaller bin, are never found.", "quantifier": "all numbers of bins and waves per bin, all names", "why_tests_cant": "the array of names is as wide as the largest bin, so the search has to stop at the number of waves of each bin, for all combinations of sizes", "anchors": ["resonanceFit/resonanceFitReadData.cc: readData"]}
{"id": "C109", "title": "Importance sampling writes as many events as its chains can share equally", "statement": "genPseudoDataImportanceSampling writes, for every number of events, chains and every lag, the largest multiple of the number of chains that does not exceed the number of events asked for, whatever is drawn, if every point, beam particle and t' is possible. All events asked for are written exactly if their number is a multiple of the number of chains; with fewer events than chains the file is empty. (Found: the script nevertheless prints that it generated the number asked for, and calculates the efficiency from it.)", "quantifier": "all numbers of events and chains, lags, histories of drawn points, and first numbers of iterations", "why_tests_cant": "the number depends on integer divisions, and on the call of the sampler for every iteration of every chain", "anchors": ["pyInterface/scripts/genPseudoDataImportanceSampling.py", "generators/importanceSampler.cc: importanceSampler::CalculateObservables"]}
