# Formal model of ROOTPWA in Lean 4 – design

The properties are in `properties.jsonl` (C01 …). The Lean project is `lean/`; for every topic there are
* `Verif/Model/<Topic>.lean` – the model: total functions transcribed from the C++/Python source, each with the cited file and lines;
* `Verif/Spec/<Topic>.lean` (when the property needs one) – the independent specification;
* `Verif/Lemmas/<Topic>.lean` – helper lemmas;
* `Verif/Props/<Topic>.lean` – property theorems only, each with a non-vacuity `example` next to it.

## Conventions
* `int`/`unsigned` values are `Int`/`Nat` unless the property is about wrap-around/truncation.
* `double` is modelled as an exact number (`Rat`, `Real`, or an arbitrary commutative ring/field). Rounding is **not** modelled (one trusted-base item).
* a C++ loop is a fold or structural recursion; a mutated object becomes a returned object.
* `throw;` without active exception (the code's idiom for "give up"), `assert` failures and undefined behaviour are distinct outcomes (`Outcome.terminate`, `Outcome.ub`, or `none` where said so) – never a default value.
* where the code violates the English property, the negation is proved on a concrete witness and the theorem for the correct part carries the suffix `_partial`.

## Plan per property
| id | what is modelled | how proved |
|----|------------------|-----------|
| C01 | the spin range helpers on `Int` | arithmetic, both directions |
| C02 | `jpcIsExotic`, `igjpIsExotic` on `Int` | equivalence with an existential quark-model spec |
| C03 | CG cache as flat memory with 5-dim row-major address; the uncached value is a parameter | address injectivity, then induction over request history |
| C04 | guard chain of the CG functor | case analysis |
| C05 | d-function cache with toggle | refinement under "no toggle"; witness for the toggle bug |
| C06 | growing factorial cache, parameter = type maximum | induction over request history |
| C07 | accumulators as fold state machines over a commutative group | invariants; witness for the resize bug |
| C08 | offset/index conversion on lists | induction over dimensions |
| C09 | path functions on `List Char` | list lemmas |
| C10 | TFracNum as sign + exponent lists of primes | value map to `Rat` |
| C11 | name/charge functions on `List Char` | induction; explicit well-formedness predicate |
| C12, C13 | particle records, table as insertion-ordered map | case analysis, filter characterisation |
| C14 | dump/readLine as token lists | witness |
| C15 | index map, read/revert | permutations |
| C16 | nested `next_permutation` enumeration | enumeration = all name-preserving permutations |
| C17 | nested loops of the generator for one vertex | membership characterisation |
| C18 | `checkConsistency` | equivalence with conservation-law spec |
| C19–C22 | integral matrix as a record with names and complex entries | algebra, PSD by sum of squares |
| C23 | parameter layout and copy functions | list recursion, round trip |
| C24, C25 | likelihood over `Real`, derivatives by Mathlib `HasDerivAt` | calculus |
| C26 | DoDerivative cache state machine | history induction + witness |
| C27 | CorrectParamSigns | algebra |
| C28 | fixed-parameter bookkeeping | size equality + witness |
| C29 | rescaling | algebra |
| C30–C33 | fit result record | algebra, calculus, witnesses |
| C34 | best-result selection | list induction |
| C35 | complexMatrix | Mathlib matrices + witness |
| C36 | parameterSpace | trig induction |
| C37, C38 | hash as a fold over an abstract byte stream | fold lemmas |
| C39–C41 | bins | order lemmas, partition |
| C42, C43 | resonance-fit cache coherence | invariant over call history |
| C44 | `calculateXSystemLab` over `Real` with ROOT's four-vector formulas | field algebra, both directions (every allowed kinematics is reached) |
| C45 | generator object: ranges, slices, estimate loop, event loop | invariant over all configuration histories; witness for stale weights |
| C46 | isospin symmetrisation on the tree | witness for a missed assignment |
| C47 | wave names as character lists of the decay tree | injectivity by induction over the tree |
| C48 | on-the-fly binned amplitude reading | loop invariants; witness |
| C49 | python `_readBinning`, grid expansion | order lemmas; rounding is a parameter |
| C50 | mass-limit preparation, data-point count | loop invariants; witness |
| C51, C52 | n-body phase space: kinematics, picking of masses, weights | induction over the number of particles; algebra over `Real` |
| C53 | Gottfried-Jackson and helicity transformations over `Real` with ROOT rotations and boosts | uniqueness of the frame from its definition, then membership; witnesses for degenerate directions |
| C54 | decay amplitudes in both formalisms as recursion over the decay tree, event modifications as maps between frames | induction over the tree: two-body symmetry (Clebsch-Gordan, d-function, barrier), equivariance of the chain of frames |
| C55 | breakup momentum, barrier factors, Dalitz border as functions of reals | algebra; specification by conservation laws and Bessel polynomials |
| C56 | every `amp` of `massDependence.cc` with possible division by zero | K-matrix / optical theorem identities over the complex numbers; witness by the intermediate value theorem |
| C57 | settings tree; reader and writer of key files as recursive functions over the decay tree | induction over the tree: reader after writer is an explicit normal form; witnesses for what is lost |
| C58 | table as a list of points; evaluation, insertion, filling; file steps of several programs | search lemmas by induction on the list, invariant over all histories and over all orderly interleavings; witnesses for the failures |
| C59 | settings as trees; search for the first `expand` group, replacement by each bin, copy through a pipe | induction on the number of `expand` groups left; pipe as a step machine; witnesses for the failures |
| C60 | the Minuit fit function with the minimiser as a parameter; its result as arguments of `fill` | inversion of the do-block, sign lemmas for parameters and Hessian; Euler's identity for the event yield; a two-event likelihood as witness |
| C61 | start values as a fold over the parameters; tree entries as a list; name search on character lists | induction over parameters and entries; infix lemmas for names; witnesses |
| C62 | NLopt objective with static buffers as explicit state; fit function with the optimiser as a parameter | index of free parameters by induction; reuse of gradient, Hessian and covariance theorems; witnesses |
| C63 | the likelihood object with all its members and the calls of the set-up as steps | exact characterisation of the state after any successful run of the protocol, by induction over the waves added; histories for the guard; witnesses |
| C64 | the accumulators of C07 run over numbers whose sums and differences are rounded arbitrarily within relative accuracy u | invariant of the compensated sum (value and compensation); the cascaded sum simulated together with its exact and absolute-value runs |
| C65 | `weightEvents` (choice of the fit result, opening of amplitude files, event loop) and `modelIntensity` (all public calls) | loop invariants for the sums; totals by exchanging sums over events and pairs of waves, compared with `fitResult::intensity`; invariant over histories of calls |
| C66 | `variedProdAmps` with the random numbers as argument and the Cholesky factor as parameter | moments by linearity of the integral; U Uᵀ = Uᵀ U only for diagonal U, by induction over rows |
| C67 | the three pickers with settings as a tree, random numbers as arguments; the sum of exponentials as specification | induction over entries; inverse transform via the fundamental theorem of calculus; concavity of the primitive for Newton's method; Lebesgue measure of the random numbers |
| C68 | the beam and vertex generator as a state machine with files as trees of rows, random numbers as arguments | case analysis of loading; induction over the number of events; Lebesgue measure of the random numbers; moments of uncorrelated random numbers |
| C69 | the manager as a state machine over files as typed groups, with a heap of picker functions shared with the generator, all random numbers as arguments | stage lemmas of the reader give an exact description of accepted files; invariant over reachable states; induction over the calls after set-up |
| C70 | a heap of vertex and particle objects, the graph as lists of nodes and edges with the two reverse maps, boost's depth-first search | a relation for the runs of the search gives order and reachability; degrees and reachability give a tree by descent along the search order; conversely a permutation of the particles of the tree gives the degrees |
| C71 | clone as in the code, node by node and edge by edge, on the heap | a structure-preserving correspondence between two topologies (closed under composition) that each step of the clone extends by one object; the check is invariant under it | 
| C72 | constructors of the components (checks, normalisations) and their `val` functions with the ways in which they end the program | sums over modes against relational break-up momenta and penetrabilities (those of C55); identities of complex quotients |
| C73 | `subDecayConsistent` on the heap: depth-first sub-graph, internal data, new production vertex | the graph of a sub-decay is built from the vertices of the sub-tree in depth-first order (`grown`): its edges, successors, depth-first order and internal data are computed; adding the new production vertex gives a topology that holds the sub-tree (`Rooted`), for which the check reduces to the indices |
| C74 | `generateWaveSet` on the heap of objects: sub-decays of the template, joining of daughter decays, clones, copies of the production vertex; the choice of isobars is an arbitrary function | `InOrder` (graph in depth-first order of its tree) is kept by joining (`Joinable.inOrder`) and cloning (`Whole.cloned`); induction over the template tree in reverse depth-first order (`grow`), invariant `Poss`: whole topologies with own objects, pairwise apart; then the production vertices (`Rooted`) |
| C75 | the table of GEANT numbers, reading and writing of text files of events as lists of lines of words, opening of several files, loop over the events of a tree | a line is read iff it `Says` a particle (independent table in Spec/EvtFile); induction over the loop in both directions gives the equivalence `read_iff`; the round trip follows from it; finite table by evaluation in the kernel |
| C76 | `importanceSampler`: parameters, prior, likelihood, observables with production kinematics and storing; BAT and the file writer are not modelled | the set-up of the phase space is related to a point (Spec: masses and angles by number of particle); C52's `weight_chung`, C51's kinematics and completeness, C44's production kinematics and the frames of C53 are combined; congruence of the BLOCK kinematics for the shift of azimuths into [0, 2π) |
| C77 | `resonanceFitReadConfig` and `resonanceFitWriteConfig` over trees of scalars, sequences and maps, with anchors and aliases when written and loaded; number formatting is a faithful parameter | what any successful read establishes is collected in `CfgOk` (Lemmas/ResFitConfigRead); every writer is inverted by its reader under `CfgOk`, bottom-up: parameters, constants, channels, couplings and branchings row by row in the stores, components, final-state mass dependence; aliases by an invariant of the anchors seen so far; start values of the next fit from C38's `startValues` |
| C78 | `minimizerRoot::minimize` and `initParameters` over the configurations of C77 and the model of C38; the minimizer is an arbitrary function of the history of calls | the variables match the layout of the parameter array position by position (Lemmas/ResFitMinimize); an invariant of the loop over the steps relates order, removed steps, budget and history (Lemmas/ResFitMinimizeLoop); a property of one number that no step can lose is carried through the history (`value_inv`); continuation from C77's round trip |
| C79 | `ClebschGordanBox` over the exact fractions of C10: the recursion over the table cell by cell (blocks l.77-247), overall sign, normalization, the map of tables | ladder relations of Racah's sum by telescoping (Lemmas/CgLadder), each branch of the recursion reproduces `sign·square` of a ladder solution (CgCells), invariant over the cells written so far (CgTable), norm of a diagonal from the Vandermonde-type convolution of binomials (CgNorm), comparison with Racah's formula of Spec/Clebsch (CgRacah); induction over the history of requests |
| C80 | `TSpinWaveFunction`: enumeration of helicity sequences by base-3 digits, the loop over projections that sets the coefficients | digits enumerate all sequences (induction on J); invariant of the loop over projections; normalization by the binomial recursion `bin(2n+2,k)`; stretched coupling from Racah's formula (CgRacah) |
| C81 | `TLSAmpl`: coupling of the two spins, contractions of the three kinds, what is left over, addition of terms with the same powers | every stage is a map over an index set of helicity sequences (Forall₂); conservation of helicity gives a common factor of all prefactors, so roots can be added; scalar and triple products of polarization vectors evaluated once; sums reordered into the specification |
| C82 | `TJSS::CalcAmpl`: loops over L, S, contractions, projections; selection rules; numbering | the nested loops enumerate the solutions of the index equations, each once; invariant of the fold over the amplitudes (kept so far, numbers so far); a sum of different monomials vanishes only if it is empty |
| C83 | `TFhh`, `TLSContrib` constructors, last part of `CalcAmpl` | all prefactors of a contribution have a common factor, so the roots can be added and divided by the sum; reflection of an axis maps a helicity to its negative, scalar products are invariant, triple products change sign |
| C84 | device memory, threads as programs of single memory accesses, launches with an arbitrary order of the threads; all kernels and host functions of the interface with 32-bit offsets; `init` and `DoEval` of the likelihood | a thread reads only arrays no thread of the launch writes, and no two threads write the same element, so every order gives the same memory; strided loops partition the events; induction over the stages of the cascaded sum; invariant over the history of calls |
| C85 | `logLikelihoodDeriv`, `Gradient` | as C84, then C24 |
| C86 | grid estimate, `loadDecayAmps`, `initCudaDevice`, `closeCudaDevice` | case analysis; the static members are the state |
| C87 | `addIntegralsToFitResult`, `stripIntegralsFromFitResult` | loops in closed form, link to the likelihood of C63 and the fit result of C60; counterexample for the acceptance of later entries |
| C88 | `_pwaFit`, `_addMatrices`, `fill` with other matrices | invariant of the loop over the fits (first minimum), draws of seeds by induction, parameters read back by name, covariance from C28 and integrals from C60 |
| C89 | `calcIntegrals`, `calcIntegralsOnTheFly`, `mergeIntegralMatrix`, `writeToFile`, `check` with the matrices of C19–C22 | success characterised through induction over files and amplitudes; results from the matrices of the single files, which are sums over the selected events |
| C90 | `getFitResultFromFile`, `getWaveDescThresFromFitResult`, `initLikelihood` and the scripts likelihoodPointCalculator.py and calcCovMatrixForFitResult.py, on the models of C23–C28, C60–C63 and C88 | the wave list read back sorts into the same waves; the set-up of C63 then gives the same data; parameters are read back by name (C88); the counter of fixed parameters is right because empty waves vanish in the result |
| C91 | `getBestFitResultFromFile`, `getBestFitResultsFromFile` (on top of the model of C34), `getWaveDescThresFromWaveList` with `strip`, `split` and the lines of a file; `float()` is a parameter, values are reals | invariant of the loop (first of the best so far); last writer of a dictionary key; case analysis of the text of a line, exact iff for whole files |
| C92 | `hli::calcAmplitude` on top of the topology model of C15 and the writer model of C37; `calcAmplitude` of _amplitude.py as the sequence of contents of the disk; crashes stop at any of them; deletions; the loops of calcAmplitudes.py | case analysis of the courses of a run; invariant of the disk over all histories; induction over the tasks |
| C93 | deWeight.py and the event loop of genPseudoData.py on top of the writer model of C37; random numbers as a sequence, for probabilities a point of a product of uniform measures | induction over the events; product measure of a box; expectation of a sum of indicator functions |
| C94 | convertEvtToTree.py and convertTreeToEvt.py on lines of words; Python's number conversions as functions; the writer model of C37, the GEANT table of C75 | equivalence with a specification of the text by induction over the loop in both directions; uniqueness of the selection of lines; the round trip follows from the equivalence |
| C95 | checkKeyFile.cc (testAmplitude and the report of main), processTree, the eigenvalues of decayTopology; a wave is its flags, quantum numbers and an arbitrary amplitude function | counters characterised by induction over the events; completeness from the symmetry theorems of C54; equivalences for wave, file and exit status |
| C96 | amplitudeTreeLeaf with its label map; a leaf is its three members, a program any sequence of calls | inductive set of reachable leaves, invariant by induction; loops over sub-amplitudes by induction; `==` characterised completely |
| C97 | the loop of generatePhaseSpace.py on the model of the event-file writer (Storage); the generator is the list of its attempts | induction over the events; number of stored events characterised and unique; translation between attempts and events by induction |
| C98 | the array functions of resonanceFitHelper.h; an array is its shape and a function from indices; elements with their assignment (plain, matrices) | recursive copy by induction over the missing dimensions; growth and setting specified by elements; all bins by induction |
| C99 | resonanceFitPlot.cc: graphs as lists of points, loops over mass bins and points, choice of turns, list of the plots; numbers from an ordered field | invariants of the loops (index = shown mass bins so far); nearest turn by induction over the tries; continuous phase by induction over points |
| C100 | resonanceFitReadData.cc: both prepare functions: loops with skip counters and row counters as lists of writes, Jacobian, masks, copy back; exact numbers, any inverter | visited waves and rows by induction (rows of a block are the positions of a list of kept indices); writes by membership; inverse transported along the list; slopes by HasDerivAt |
| C101 | resonanceFitReadData.cc: collection of centers, mapping of entries, blocks of covariances, production amplitudes by name, bands of systematics with turned phases; a tree is a list of entries | loop invariants by induction over entries; counting (every entry is in the mapping) for uniqueness; bands as smallest and largest element of a set |
| C102 | data.cc:205-227 (blocks of the weights) between the models of the preparation (C100) and of the function (C42) | the inverse of a block matrix is a block matrix (commuting projections); the double sum splits over pairs as the rows of different pairs are disjoint; with C42 and C100 |
| C103 | plotAngles.py: the two functions that flag permutations, combineSyms, and which histograms are filled for one event | flags are first occurrences of labels (sorted images); of equal labels there is one first occurrence, their number is the number of labels |
| C104 | getMassShapes.cc; particles are numbers, their vectors the state; mass dependence of a vertex is a parameter | factorized Källén function, square roots of squares for energies; induction over the tree of vertices |
| C105 | data.cc/model.cc comparisons of bins, for a model that was read (C42, C77) and the list of plots of C99 | comparisons of lists; mapping depends on names only, bins of channels from the invariant of reading; anchors from the search of C42 |
| C106 | eigenvectorLikelihoodSlices.py on the model of C90 | along a line the amplitudes have a constant derivative; the derivatives of C24/C25 are linear in the direction, so they are sums over the parameters; eigenvector of the inverse |
| C107 | constructors of `baseData` and `data` with arrays as shapes and elements | a loop that always writes the same value at the same index is the pointwise update; a loop with a bad step ends the program; the blocks are inside by the bound of C102 |
| C108 | search for the anchor waves in `readData` | induction over the names that are left and over the bins that are left |
| C109 | run lengths of genPseudoDataImportanceSampling.py and the calls of C76's `CalculateObservables` | a block of `lag` iterations has one multiple of the lag, for any first number; induction over the calls |

Later properties (C110 …) follow the same plan; their rows are in the section "Model inventory" below.

Nothing was found that cannot be expressed at all; what stays outside the model is listed under "Trusted base".

## Model inventory
| module (`Verif/Model/…`) | code | properties |
|---|---|---|
| Spin, Clebsch, DFunction, Factorial, Accumulators, ArrayUtils, FileUtils | `utilities/*.hpp` | C01–C09 |
| Fraction | `relativisticAmpCorrections/TFracNum.*`, `primeNumbers.*` | C10 |
| Particle | `particleData/*` | C11–C14 |
| EventMomenta, NextPerm, Symmetrization | `decayTopology.cc` (kinematics), `isobarDecayTopology.cc` (symmetrisation) | C15, C16, C46 |
| WaveSet, Vertex, WaveName | `waveSetGenerator.cc`, `isobarDecayVertex.cc`, `waveDescription.cc` (names) | C17, C18, C47 |
| IntegralMatrix | `ampIntegralMatrix.cc` | C19–C22 |
| FitParameters, Likelihood, LikTools, OtfBin | `pwaLikelihood.cc` | C23–C29, C39, C48 |
| FitResult, BestResult, ComplexMatrix, ParameterSpace | `fitResult.*`, `complexMatrix.*`, `parameterSpace.*` | C30–C36 |
| Storage | `storageFormats/*` | C37, C38 |
| MultiBin, Config | `pyInterface/module/utils/_binning.py`, `_fileManager.py`, `_config.py` | C39–C41, C49 |
| ResonanceFit, ResonanceShapes | `resonanceFit/{cache,parameters,function,model,components,fsmd}.cc`, read data | C42, C43, C50, C72 |
| Kinematics, PhysUtils, PhaseSpace, Generator | `generators/diffractivePhaseSpace.cc`, `nBodyPhaseSpace/*`, `utilities/physUtils.hpp` | C44, C45, C51, C52 |
| Frames | `isobarAmplitude.cc` (`gjTransform`), `isobarHelicityAmplitude.cc` (`hfTransform`) | C53 |
| Amplitude | `isobarAmplitude.cc`, `isobarHelicityAmplitude.cc`, `isobarCanonicalAmplitude.cc` (amplitudes), `dFunction.hpp` (`DFunction`, `DFunctionRefl`, `sphericalHarmonic`) | C54 |
| PhysUtils | `utilities/physUtils.hpp` (breakup momenta, barrier factors, reflectivity factor, Dalitz border) | C55 |
| MassDependence | `massDependence.cc` (all `amp`) | C56 |
| KeyFile | `waveDescription.cc` (reading and writing of key files), `massDependence.cc` (`Create` functions), `isobarDecayTopology.cc` (`calcIsobarCharges`), constructors of the production vertices | C57 |
| PhaseSpaceIntegral | `phaseSpaceIntegral.cc`: `operator()`, `dyn`, `interpolate`, `getInt0`, `addToIntegralTable`, `fillIntegralTable`, the file handling of `readIntegralFile` and `writeIntegralTableToDisk` as atomic steps; not: `evalInt` (parameter), graphs, wave names | C58 |
| KeyExpand | `waveDescription.cc`: `parseKeyFile`, `expand`, `findExpand`; `libConfigUtils.hpp`: `copyConfig` (pipe as a bounded buffer); not: libconfig itself (trees of settings), number formatting (parameter) | C59 |
| PwaFit | `pwaFit.cc`, `pwaNloptFit.cc` complete except printing; `fitResult.cc`: `fitParameter`; `pwaLikelihood.cc`: `getIntegralMatrices`; not: Minuit2, NLopt (parameters with assumptions `MinimizerOk`, `NloptOk`), ROOT's random numbers (a sequence) | C60, C61, C62 |
| LikSetup | `pwaLikelihood.cc`: constructor, `init`, `addNormIntegral`, `addAccIntegral`, `addAmplitude` (after the files are read), `finishInit`, `reorderIntegralMatrix`; not: reading files (C48) | C63 |
| Rounding | `Spec/Rounding`: arithmetic with rounding of relative accuracy u; the functions are those of `Model/Accumulators` | C64 |
| EventWeights | `weightEvents.cc` (l.69-125, 280-516), `modelIntensity.{h,cc}`; not modelled: command line, histogram booking, names of files, random sampling of production amplitudes (C66) | C65 |
| VariedAmps | `fitResult::variedProdAmps` | C66 |
| Pickers | `generatorPickerFunctions.{h,cc}`, `checkIfAllVariablesAreThere`; not modelled: printing, `TF1::GetRandom` (mass of the polynomial picker) | C67 |
| BeamVertex | `beamAndVertexGenerator.{h,cc}`; not modelled: printing, ROOT's eigenvalue decomposition (parameter), the seed discarded by `Integer(15)` | C68 |
| GeneratorManager | `generatorManager.{h,cc}` (readReactionFile, initializeGenerator, overrideMassRange, overrideBeamFile, readBeamfileSequentially, randomizeBeamfileStartingPosition, event); not modelled: printing, libconfig's parser (typed groups are given), file not readable / parse error are one case | C69 |
| DecayGraph | `decayGraph.hpp` (addVertex, node, edge, sortNodesDfs, topNode, subgraph, addGraph, createEdgesFromParticles, buildReverseMaps, cloneNode, cloneEdge), `decayTopology.cc` (constructDecay, checkTopology, buildInternalData, subDecay, addDecay, setProductionVertex, doClone, is…), `isobarDecayTopology.cc` (constructDecay, checkTopology, subDecayConsistent, joinDaughterDecays, calcIsobarLzVec); boost's graph as lists of nodes and edges; not modelled: null pointers (every function ends the program), names and printing, linked subgraphs | C70, C71, C73 |
| WaveGraph | `waveSetGenerator.cc` (generateWaveSet: construction of topologies, createNewDecayTopology, clones of setMassDepsForDecayTopology); not modelled: L, S, mass dependences of vertices, charges, Bose duplicates (Model/WaveSet has the choice of quantum numbers) | C74 |
| EvtFile | `evtTreeHelper.cc` (fillTreeFromEvt, writeEvtFromTree, checkParticleCharge, the part of openRootEvtFiles about text files, processTree), GEANT table of `particleDataTable.cc`; not modelled: reading of ROOT files, characters within words, energies read | C75 |
| ImportanceSampler | `generators/importanceSampler.cc` (constructor, LogAPrioriProbability, LogLikelihood, CalculateObservables, getProductionKinematics, initializeNBodyPhaseSpace); not modelled: BAT, statistics of calls, locks, names of parameters, file writer (C40) | C76 |
| ResFitConfig | `resonanceFit/resonanceFitReadConfig.cc`, `resonanceFitWriteConfig.cc`, `resonanceFit.cc: read` (data reading is a parameter); not modelled: text of YAML, debug output, `readData` (see ResonanceFit) | C77 |
| ResFitMinimize | `resonanceFit/minimizerRoot.cc`; not modelled: ROOT's minimizers (an arbitrary function), messages, non-finite answers | C78 |
| CgBox | `relativisticAmpCorrections/ClebschGordanBox.{h,cc}`; not modelled: debug output, overflow of `long` | C79 |
| SpinTensor | `relativisticAmpCorrections/TSpinWaveFunction.{h,cc}`, `TJwfTensor.{h,cc}`, `TLSAmpl.{h,cc}`; not modelled: debug output, overflow of `long` | C80, C81 |
| SpinChannel | `relativisticAmpCorrections/TJSS.{h,cc}`, `TFhh.{h,cc}` and `TLSContrib.{h,cc}` (constructors from LS amplitudes); not modelled: output, identical particles, nonrelativistic limit | C82, C83 |
| Gpu, CudaLik | CUDA machine (specification of the runtime); `cuda/likelihoodKernel.cu`, `cuda/likelihoodInterface.cu`, the arithmetic of `cuda/complex.cuh` (as `ℂ`), `utilities/arrayUtils.hpp` `indicesToOffset`, the CUDA branches of `partialWaveFit/pwaLikelihood.cc`; not modelled: timers, printing, memory limits | C84-C86 |
| FitAttempts | `pyInterface/module/_fit.py`: `_pwaFit`, `_addMatrices`, `addCovarianceMatrix`; `fitResult::fill` with replaced matrices; not modelled: reading the wave list, set-up of the likelihood (SetupInput) |
| IntegralMeta | `decayAmplitude/ampIntegralMatrixMetadata.cc`, `pyInterface/module/_integrals.py`, `_integralsOnTheFly.py` on top of IntegralMatrix; not modelled: reading and writing of ROOT files, construction of amplitudes, progress output |
| FitIntegrals | loops over the tree of `partialWaveFit/addIntegralsToFitResult.cc` and `stripIntegralsFromFitResult.cc`; not modelled: command line, opening and reading files |
| Refit | `_waveDescThresUtils.py` (fit results), `getFitResultFromFile`, `_likelihood.py`, calculation in likelihoodPointCalculator.py and calcCovMatrixForFitResult.py; not modelled: command line, file manager, opening and writing files |
| FitSelect | `_fitTreeUtils.py` (best results), `_waveDescThresUtils.py` (wave lists); not modelled: opening files, warnings, NaN likelihoods, decimal parsing |
| AmpCalc | calcAmplitude.cc, `_amplitude.py`, loops and selections of calcAmplitudes.py; not modelled: null momenta arrays, two processes that open the same file at the same time, ROOT file recovery other than any beginning of the tree |
| Deweight | deWeight.py, event loop of genPseudoData.py; not modelled: command lines, the event generator itself (C39-C41), `modelIntensity` (C65), opening of files |
| EvtConvert | convertEvtToTree.py, convertTreeToEvt.py; not modelled: characters within words, a last line without line feed (its last character is cut off), lines that have only blanks, command lines |
| CheckKey | checkKeyFile.cc:78-441, evtTreeHelper.cc:635-714, decayTopology.cc:210-236; not modelled: rounding, NaN, overflow of the counters, events that ROOT cannot load, command line, opening of the test data |
| TreeLeaf | amplitudeTreeLeaf.cc:52-202, amplitudeTreeLeaf.h:80-215; not modelled: printing, rounding, the ROOT streamer (a stored leaf keeps its two persistent members) |
| PhaseGen | generatePhaseSpace.py:51-53, 85-90, 112-185; not modelled: reading of the reaction file (GeneratorManager), Comgeant file, messages |
| Arrays | resonanceFitHelper.h:41-318, resonanceFitReadData.cc:1171-1184; boost::multi_array by its documented behaviour (resize assigns the overlap), TMatrixT assignment fails for other sizes |
| Plots | resonanceFitPlot.cc:47-730; TGraph SetPoint/GetPoint/SetPointError by their documented behaviour; fitted model as functions of mass and mass bin |
| FitCov | resonanceFitReadData.cc:54-527 (prepareProductionAmplitudes, prepareSpinDensityMatrices) for one bin; matrices as functions, TMatrixT::Invert by its specification; the loops over mass bins and bins with the returned value that is ignored; matrix sizes and the messages are not modelled |
| FitRead | resonanceFitReadData.cc:530-1215 (readFitResultMassBins, checkFitResultMassBins, readFitResultMatrices, readInFile, readSystematicsFile(s), bands of readInFiles); opening of files, debug output, phase-space integrals (copied by name) are not modelled |
| FitData | data.cc:205-227 (weights of the pairs of waves), function.h:56-61; the constructor is in DataObj | C102 |
| Angles | pyInterface/scripts/plotAngles.py:15-109, :232-239, :279-286, :334-381 (permutations and fills); reading, boosts and drawing are not modelled | C103 |
| MassShapes | highLevelInterface/getMassShapes.cc; the warning is not modelled | C104 |
| SumPlots | data.cc:87-113, model.cc:256-279, resonanceFitPlot.cc:650-728 | C105 |
| Slices | eigenvectorLikelihoodSlices.py:71-185 | C106 |
| DataObj | data.cc:36-84, :115-280, checkSize of resonanceFitHelper.h; not modelled: conversion to `Int_t` | C107 |
| Anchors | resonanceFitReadData.cc:1382-1394 | C108 |
| GenSample | genPseudoDataImportanceSampling.py:154-158; not modelled: BAT | C109 |

## Trusted base
* Lean 4.33.0 kernel; axioms `propext`, `Classical.choice`, `Quot.sound` only. The axioms of every theorem of the manifest, printed with `#print axioms`, are in `AXIOMS.md`. No own axioms, no compiled evaluation.
* Faithfulness of the hand transcription (file and lines are cited in every definition).
* `double` is treated as an exact real (or rational) number; NaN and infinities appear only where a theorem says so (as a separate outcome, e.g. `none`). Where rounding is the point (14-digit rounding in `_config.py`, text form of numbers in `_binning.py`) it is a parameter with the stated laws.
* Assertions are taken as active (the build flags do not define NDEBUG); `throw;` without an exception ends the program.
* Library behaviour entering as parameter or transcription: PCRE matching of a literal (`LiteralRx`), uBLAS `lu_factorize` (`LuSpec`), MD5 as an arbitrary function of the byte stream, ROOT trees as lists of entries read back as written, ROOT `TLorentzVector`/`TVector3` formulas (boost, `RotateUz`, `Rotation`), `std::next_permutation` (modelled and proved), `std::map` as sorted association, python `repr`/`float` (`FloatText`), random number generators as arbitrary sequences in the open unit interval.

## Not modelled
* OpenMP variants, minimiser internals (ROOT, NLopt, BAT), Fortran, plotting code, python bindings, command-line programs, XML/YAML/libconfig parsers, printing.
* ROOT I/O internals: dangling branch addresses (e.g. after `setOnTheFlyBinning`), file locking, compression.
* Concurrency beyond the `thread_local` cache of the resonance fit (C42) and the threads of CUDA kernels (C84, C85).
* `relativisticAmpCorrections`: output, identical particles, nonrelativistic limit (see the inventory).
