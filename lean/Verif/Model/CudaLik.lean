import Verif.Model.Gpu
import Verif.Model.Likelihood
/-!
# cuda/likelihoodKernel.cu, cuda/likelihoodInterface.cu and the CUDA branches of partialWaveFit/pwaLikelihood.cc

Floating point numbers are `ℝ`, complex numbers `ℂ`.  `unsigned int` is 32 bits wide where it can wrap: offsets, loop counters, the
`unsigned int` byte counts.  `hostBytes` is `sizeof(std::complex<T>)` of the calling code, 16 for `double`, 8 for `float`;
`sizeof(cuda::complex<T>)` is 16 for both (complex.cuh:43, 60: aligned to `2 * sizeof(double)`).  Timers, printing and the check of the
available memory are left out. -/
namespace Rpwa.Cuda

open Rpwa.Lik

/-- the kernels of likelihoodKernel.cu; `cudaFuncGetAttributes` gives each a maximum number of threads per block. -/
inductive Kernel where
  | sum
  | sumDerivatives
  | logLikelihood
  | derivFirstTerm
  | deriv
  | derivFlat

/-- the fields of `cudaDeviceProp` that are used for computing. -/
structure DeviceProp where
  warpSize : ℕ
  multiProcessorCount : ℕ

/-- everything outside the code: the hardware and the order in which the threads of the `n`-th launch run. -/
structure Env where
  nmbDevices : ℕ
  prop : DeviceProp
  maxThreadsPerBlock : Kernel → ℕ
  sched : ℕ → List ℕ

/-- device state and static members of `likelihoodInterface`, likelihoodInterface.cu:96-107. -/
structure Dev where
  heap : Heap
  next : ℕ
  launches : ℕ
  initialized : Bool
  prop : DeviceProp
  decayAmps : ℕ
  nmbEvents : ℕ
  nW0 : ℕ
  nW1 : ℕ
  nWMax : ℕ
  rank : ℕ

/-- state at program start. -/
def Dev.start : Dev :=
  { heap := fun _ => none, next := 1, launches := 0, initialized := false, prop := ⟨0, 0⟩, decayAmps := 0, nmbEvents := 0, nW0 := 0,
    nW1 := 0, nWMax := 0, rank := 0 }

/-- host code. -/
abbrev Host := StateT Dev Outcome

/-- `ub`, `terminate` in host code. -/
def Host.ub {α : Type} : Host α := fun _ => .ub
def Host.terminate {α : Type} : Host α := fun _ => .terminate

/-- utilities/arrayUtils.hpp:206-214 `indicesToOffset<unsigned int>` (32-bit arithmetic). -/
def indicesLoop : ℕ → List ℕ → List ℕ → ℕ
  | offset, i :: is, d :: ds => indicesLoop (u32 (offset * d + i)) is ds
  | offset, _, _ => offset

def indicesToOffset (indices dim : List ℕ) : ℕ :=
  match indices, dim with
  | i :: is, _ :: ds => indicesLoop i is ds
  | _, _ => 0

/-- the values of the counter of `for (unsigned int i = start; i < bound; i += step)`; a loop that makes more than `bound` iterations
has seen a counter value twice and never ends (`none`). -/
def strideLoop (bound step : ℕ) : ℕ → ℕ → Option (List ℕ)
  | 0, _ => none
  | fuel + 1, i => if i < bound then (strideLoop bound step fuel (u32 (i + step))).map (i :: ·) else some []

def strided (start bound step : ℕ) : Prog (List ℕ) :=
  match strideLoop bound step (bound + 1) start with
  | some l => .ret l
  | none => .hang

/-- likelihoodKernel.cu:42-60 `compensatedSum`; the pair is `(*sum, *compensation)`. -/
def compensatedSum {T : Type} [Ring T] (value : T) (s : T × T) : T × T :=
  let correctedTerm := value - s.2
  let newSum := s.1 + correctedTerm
  (newSum, (newSum - s.1) - correctedTerm)

/-- likelihoodKernel.cu:62-80 `sumKernel`. -/
def sumKernel (T : Type) [Ring T] [DevVal T] (d_valArray nmbVals d_sumArray nmbSums : ℕ) (threadId : ℕ) : Prog Unit :=
  if threadId < nmbSums then do
    let is ← strided threadId nmbVals nmbSums
    let s ← is.foldlM (fun s i => do
      let v ← load T d_valArray i
      pure (compensatedSum v s)) ((0, 0) : T × T)
    store d_sumArray threadId s.1
  else pure ()

/-- extents of the wave index, `nmbWavesRefl[iRefl]`. -/
def nmbWavesRefl (neg pos : ℕ) (iRefl : ℕ) : ℕ := if iRefl = 0 then neg else pos

/-- likelihoodKernel.cu:115-126 and 166-177: the amplitude sum for one rank, reflectivity and event. -/
noncomputable def ampProdSum (d_prodAmps d_decayAmps nmbEvents rank neg pos nmbWavesMax iRank iRefl iEvt : ℕ) : Prog ℂ := do
  let prodAmpDim := [rank, 2, nmbWavesMax]
  let decayAmpDim := [2, nmbWavesMax, nmbEvents]
  let s ← (List.range (nmbWavesRefl neg pos iRefl)).foldlM (fun s iWave => do
    let v ← load ℂ d_prodAmps (indicesToOffset [iRank, iRefl, iWave] prodAmpDim)
    let a ← load ℂ d_decayAmps (indicesToOffset [iRefl, iWave, iEvt] decayAmpDim)
    pure (compensatedSum (v * a) s)) ((0, 0) : ℂ × ℂ)
  pure s.1

/-- the loops `for iRank < rank, for iRefl < 2`. -/
def rankRefl (rank : ℕ) : List (ℕ × ℕ) := (List.range rank).flatMap fun r => (List.range 2).map fun e => (r, e)

/-- likelihoodKernel.cu:83-133 `logLikelihoodKernel`. -/
noncomputable def logLikelihoodKernel (d_prodAmps : ℕ) (prodAmpFlat2 : ℝ) (d_decayAmps nmbEvents rank neg pos nmbWavesMax d_logLikelihoods : ℕ)
    (nmbThreads threadId : ℕ) : Prog Unit := do
  let evts ← strided threadId nmbEvents nmbThreads
  let s ← evts.foldlM (fun s iEvt => do
    let l ← (rankRefl rank).foldlM (fun l re => do
      let amp ← ampProdSum d_prodAmps d_decayAmps nmbEvents rank neg pos nmbWavesMax re.1 re.2 iEvt
      pure (compensatedSum (Complex.normSq amp) l)) ((0, 0) : ℝ × ℝ)
    let l := compensatedSum prodAmpFlat2 l
    pure (compensatedSum (-Real.log l.1) s)) ((0, 0) : ℝ × ℝ)
  store d_logLikelihoods threadId s.1

/-- likelihoodKernel.cu:136-187 `logLikelihoodDerivFirstTermKernel`; one thread per event. -/
noncomputable def logLikelihoodDerivFirstTermKernel (d_prodAmps : ℕ) (prodAmpFlat2 : ℝ)
    (d_decayAmps nmbEvents rank neg pos nmbWavesMax d_derivTerms d_likelihoods : ℕ) (iEvt : ℕ) : Prog Unit :=
  if iEvt < nmbEvents then do
    let derivTermDim := [rank, 2, nmbEvents]
    let l ← (rankRefl rank).foldlM (fun l re => do
      let amp ← ampProdSum d_prodAmps d_decayAmps nmbEvents rank neg pos nmbWavesMax re.1 re.2 iEvt
      store d_derivTerms (indicesToOffset [re.1, re.2, iEvt] derivTermDim) amp
      pure (compensatedSum (Complex.normSq amp) l)) ((0, 0) : ℝ × ℝ)
    let l := compensatedSum prodAmpFlat2 l
    store d_likelihoods iEvt l.1
  else pure ()

/-- likelihoodKernel.cu:190-236 `logLikelihoodDerivKernel`. -/
noncomputable def logLikelihoodDerivKernel (d_decayAmps d_derivTerms d_likelihoods nmbEvents rank neg pos nmbWavesMax d_derivativeSums : ℕ)
    (nmbThreads threadId : ℕ) : Prog Unit :=
  let decayAmpDim := [2, nmbWavesMax, nmbEvents]
  let derivTermDim := [rank, 2, nmbEvents]
  let derivSumDim := [rank, 2, nmbWavesMax, nmbThreads]
  (slots rank (nmbWavesRefl neg pos)).forM fun s => do
    let evts ← strided threadId nmbEvents nmbThreads
    let d ← evts.foldlM (fun d iEvt => do
      let term ← load ℂ d_derivTerms (indicesToOffset [s.1, s.2.1, iEvt] derivTermDim)
      let a ← load ℂ d_decayAmps (indicesToOffset [s.2.1, s.2.2, iEvt] decayAmpDim)
      let derivative := term * (starRingEnd ℂ) a
      let l ← load ℝ d_likelihoods iEvt
      pure (compensatedSum (((-(2 / l) : ℝ) : ℂ) * derivative) d)) ((0, 0) : ℂ × ℂ)
    store d_derivativeSums (indicesToOffset [s.1, s.2.1, s.2.2, threadId] derivSumDim) d.1

/-- likelihoodKernel.cu:239-260 `logLikelihoodDerivFlatKernel`. -/
noncomputable def logLikelihoodDerivFlatKernel (prodAmpFlat : ℝ) (d_likelihoods nmbEvents d_derivativeFlatSums : ℕ)
    (nmbThreads threadId : ℕ) : Prog Unit := do
  let evts ← strided threadId nmbEvents nmbThreads
  let d ← evts.foldlM (fun d iEvt => do
    let l ← load ℝ d_likelihoods iEvt
    pure (compensatedSum (-(2 / l) * prodAmpFlat) d)) ((0, 0) : ℝ × ℝ)
  store d_derivativeFlatSums threadId d.1

/-- likelihoodKernel.cu:263-299 `sumDerivativesKernel`. -/
noncomputable def sumDerivativesKernel (d_derivatives nmbDerivatives rank neg pos nmbWavesMax d_derivativeSums nmbDerivativeSums : ℕ)
    (threadId : ℕ) : Prog Unit :=
  if threadId < nmbDerivativeSums then
    let derivDim := [rank, 2, nmbWavesMax, nmbDerivatives]
    let derivSumDim := [rank, 2, nmbWavesMax, nmbDerivativeSums]
    (slots rank (nmbWavesRefl neg pos)).forM fun s => do
      let is ← strided threadId nmbDerivatives nmbDerivativeSums
      let d ← is.foldlM (fun d i => do
        let v ← load ℂ d_derivatives (indicesToOffset [s.1, s.2.1, s.2.2, i] derivDim)
        pure (compensatedSum v d)) ((0, 0) : ℂ × ℂ)
      store d_derivativeSums (indicesToOffset [s.1, s.2.1, s.2.2, threadId] derivSumDim) d.1
  else pure ()

/-- the programs of all threads of a grid; `threadId = blockIdx.x * blockDim.x + threadIdx.x` (e.g. likelihoodKernel.cu:73). -/
def grid (nmbBlocks nmbThreadsPerBlock : ℕ) (kernel : ℕ → Prog Unit) : List (Prog Unit) :=
  (List.range nmbBlocks).flatMap fun b => (List.range nmbThreadsPerBlock).map fun t => kernel (u32 (b * nmbThreadsPerBlock + t))

/-- `kernel<<<nmbBlocks, nmbThreadsPerBlock>>>(…)` followed by `stopKernelTimer` (likelihoodInterface.cu:664-670), which waits for the
end of the kernel.  A grid the kernel cannot be launched with is an error. -/
def run (env : Env) (k : Kernel) (nmbBlocks nmbThreadsPerBlock : ℕ) (kernel : ℕ → Prog Unit) : Host Unit := fun d =>
  if nmbBlocks = 0 ∨ nmbThreadsPerBlock = 0 ∨ nmbThreadsPerBlock > env.maxThreadsPerBlock k then .terminate
  else match launch (env.sched d.launches) d.heap (grid nmbBlocks nmbThreadsPerBlock kernel) with
    | .ok h => .ok ((), { d with heap := h, launches := d.launches + 1 })
    | .terminate => .terminate
    | .ub => .ub

/-- `cudaMalloc` of `n` elements. -/
def malloc (n : ℕ) : Host ℕ := fun d =>
  .ok (d.next, { d with heap := Function.update d.heap d.next (some ⟨n, fun _ => none⟩), next := d.next + 1 })

/-- `cudaFree`; `checkCudaErrors` ends the program if the pointer is not that of a device array. -/
def free (p : ℕ) : Host Unit := fun d =>
  if p = 0 then .ok ((), d)
  else match d.heap p with
    | some _ => .ok ((), { d with heap := Function.update d.heap p none })
    | none => .terminate

/-- `cudaMemcpy(p, xs, …, cudaMemcpyHostToDevice)` of `n` 16-byte elements from a host array with elements of `hostBytes` bytes.  For
`hostBytes = 16` element `i` is `xs[i]`. -/
def copyToDevice (hostBytes p : ℕ) (xs : List ℂ) (n : ℕ) : Host Unit := fun d =>
  match d.heap p with
  | none => .ub
  | some b =>
    if b.len < n ∨ xs.length * hostBytes < n * 16 ∨ (n ≠ 0 ∧ hostBytes ≠ 16) then .ub
    else
      let cell : ℕ → Option Val := fun o => if o < n then xs[o]?.map Val.cx else b.cell o
      .ok ((), { d with heap := Function.update d.heap p (some { b with cell := cell }) })

/-- `cudaMemcpy(…, p, …, cudaMemcpyDeviceToHost)` of `n` elements; `none` is an indeterminate value. -/
def copyToHost (p n : ℕ) : Host (List (Option Val)) := fun d =>
  match d.heap p with
  | none => .ub
  | some b => if b.len < n then .ub else .ok ((List.range n).map b.cell, d)

/-- likelihoodInterface.cu:304-360 `estimateOptimumKernelGrid`: `(nmbBlocks, nmbThreadsPerBlock)`; division by zero is `ub`. -/
def estimateOptimumKernelGrid (env : Env) (k : Kernel) (minNmbThreads : ℕ) : Host (ℕ × ℕ) := fun d =>
  let warpSize := d.prop.warpSize
  let max0 := env.maxThreadsPerBlock k
  if max0 > warpSize ∧ warpSize = 0 then .ub
  else
    let maxNmbThreadsPerBlock := if max0 > warpSize then (max0 / warpSize) * warpSize else max0
    let maxNmbBlocks := d.prop.multiProcessorCount
    if minNmbThreads = 0 then .ok ((maxNmbBlocks, maxNmbThreadsPerBlock), d)
    else if maxNmbThreadsPerBlock = 0 then .ub
    else if minNmbThreads / maxNmbThreadsPerBlock ≥ maxNmbBlocks then
      let nmbBlocks := minNmbThreads / maxNmbThreadsPerBlock
      let nmbBlocks := if minNmbThreads % maxNmbThreadsPerBlock > 0 then nmbBlocks + 1 else nmbBlocks
      .ok ((nmbBlocks, maxNmbThreadsPerBlock), d)
    else
      let t := minNmbThreads / maxNmbBlocks
      let t := if minNmbThreads % maxNmbBlocks > 0 then t + 1 else t
      let t := if t > warpSize then (t / warpSize) * warpSize else warpSize
      if t = 0 then .ub
      else
        let nmbBlocks := minNmbThreads / t
        let nmbBlocks := if minNmbThreads % t > 0 then nmbBlocks + 1 else nmbBlocks
        .ok ((nmbBlocks, t), d)

/-- likelihoodInterface.cu:51-69 `sumKernelCaller::call`. -/
def sumKernelCaller (env : Env) (d_sumsPrev nmbSumsPrev d_sumsNext nmbSumsNext : ℕ) : Host Unit := do
  let g ← estimateOptimumKernelGrid env .sum nmbSumsNext
  run env .sum g.1 g.2 (sumKernel ℝ d_sumsPrev nmbSumsPrev d_sumsNext nmbSumsNext)

/-- likelihoodInterface.cu:72-93 `sumDerivativesKernelCaller::call`. -/
noncomputable def sumDerivativesKernelCaller (env : Env) (d_sumsPrev nmbSumsPrev d_sumsNext nmbSumsNext : ℕ) : Host Unit := do
  let g ← estimateOptimumKernelGrid env .sumDerivatives nmbSumsNext
  let d ← get
  run env .sumDerivatives g.1 g.2
    (sumDerivativesKernel d_sumsPrev nmbSumsPrev d.rank d.nW0 d.nW1 d.nWMax d_sumsNext nmbSumsNext)

/-- likelihoodInterface.cu:636-661 `cascadedKernelSum`; returns the new `d_sumsPrev`.  The number of sums gets smaller in every
round, so `nmbSumsPrev + 1` rounds are enough (the first argument bounds the rounds; `terminate` when it is used up). -/
def cascadeLoop (caller : ℕ → ℕ → ℕ → ℕ → Host Unit) (nmbOfSumsAtEachStage sumElementSize : ℕ) : ℕ → ℕ → ℕ → Host ℕ
  | 0, _, _ => Host.terminate
  | fuel + 1, d_sumsPrev, nmbSumsPrev => do
    let nmbSumsNext := nmbSumsPrev / nmbOfSumsAtEachStage
    let nmbSumsNext := if nmbSumsNext ≤ nmbOfSumsAtEachStage then 1 else nmbSumsNext
    let d_sumsNext ← malloc (sumElementSize * nmbSumsNext)
    caller d_sumsPrev nmbSumsPrev d_sumsNext nmbSumsNext
    free d_sumsPrev
    if nmbSumsNext > nmbOfSumsAtEachStage then cascadeLoop caller nmbOfSumsAtEachStage sumElementSize fuel d_sumsNext nmbSumsNext
    else pure d_sumsNext

def cascadedKernelSum (caller : ℕ → ℕ → ℕ → ℕ → Host Unit) (nmbOfSumsAtEachStage d_sumsPrev nmbSumsPrev sumElementSize : ℕ) : Host ℕ :=
  cascadeLoop caller nmbOfSumsAtEachStage sumElementSize (nmbSumsPrev + 1) d_sumsPrev nmbSumsPrev

/-- number of elements in an array of `unsigned int size = n * sizeof(complexT)` bytes, likelihoodInterface.cu:236, 380, 444. -/
def allocElems (n : ℕ) : ℕ := u32 (n * 16) / 16

/-- `value_type x; cudaMemcpy(&x, p, sizeof(value_type), …)` and use of `x`, e.g. likelihoodInterface.cu:407-410. -/
def fetch (p : ℕ) : Host ℝ := do
  let xs ← copyToHost p 1
  match xs with
  | some (Val.re x) :: _ => pure x
  | _ => Host.ub

/-- likelihoodInterface.cu:363-418 `logLikelihood`. -/
noncomputable def logLikelihood (env : Env) (hostBytes : ℕ) (prodAmps : List ℂ) (nmbProdAmps : ℕ) (prodAmpFlat : ℝ) (rank : ℕ) : Host ℝ := do
  let d_prodAmps ← malloc (allocElems nmbProdAmps)
  copyToDevice hostBytes d_prodAmps prodAmps (allocElems nmbProdAmps)
  let g ← estimateOptimumKernelGrid env .logLikelihood 0
  let nmbSumsPrev := u32 (g.1 * g.2)
  let d_logLikelihoodSumsPrev ← malloc nmbSumsPrev
  let d ← get
  run env .logLikelihood g.1 g.2
    (logLikelihoodKernel d_prodAmps (prodAmpFlat * prodAmpFlat) d.decayAmps d.nmbEvents rank d.nW0 d.nW1 d.nWMax d_logLikelihoodSumsPrev
      (u32 (g.1 * g.2)))
  free d_prodAmps
  let d_logLikelihoodSumsPrev ← cascadedKernelSum (sumKernelCaller env) 6 d_logLikelihoodSumsPrev nmbSumsPrev 1
  let logLikelihood ← fetch d_logLikelihoodSumsPrev
  free d_logLikelihoodSumsPrev
  pure logLikelihood

/-- likelihoodInterface.cu:421-536 `logLikelihoodDeriv`: the arrays `derivatives` and `derivativeFlat` as copied from the device. -/
noncomputable def logLikelihoodDeriv (env : Env) (hostBytes : ℕ) (prodAmps : List ℂ) (nmbProdAmps : ℕ) (prodAmpFlat : ℝ) (rank : ℕ) :
    Host (List (Option Val) × ℝ) := do
  let d_prodAmps ← malloc (allocElems nmbProdAmps)
  copyToDevice hostBytes d_prodAmps prodAmps (allocElems nmbProdAmps)
  let d ← get
  let nmbEvents := d.nmbEvents
  let d_derivTerms ← malloc (rank * 2 * nmbEvents)
  let d_likelihoods ← malloc nmbEvents
  let g ← estimateOptimumKernelGrid env .derivFirstTerm nmbEvents
  run env .derivFirstTerm g.1 g.2
    (logLikelihoodDerivFirstTermKernel d_prodAmps (prodAmpFlat * prodAmpFlat) d.decayAmps nmbEvents rank d.nW0 d.nW1 d.nWMax
      d_derivTerms d_likelihoods)
  free d_prodAmps
  let nmbDerivElements := u32 (rank * 2 * d.nWMax)
  let g ← estimateOptimumKernelGrid env .deriv 0
  let nmbSumsPrev := u32 (g.1 * g.2)
  let d_derivativeSumsPrev ← malloc (nmbDerivElements * nmbSumsPrev)
  run env .deriv g.1 g.2
    (logLikelihoodDerivKernel d.decayAmps d_derivTerms d_likelihoods nmbEvents rank d.nW0 d.nW1 d.nWMax d_derivativeSumsPrev
      (u32 (g.1 * g.2)))
  modify fun d => { d with rank := rank }
  let d_derivativeSumsPrev ← cascadedKernelSum (sumDerivativesKernelCaller env) 6 d_derivativeSumsPrev nmbSumsPrev nmbDerivElements
  let derivatives ← copyToHost d_derivativeSumsPrev nmbDerivElements
  free d_derivativeSumsPrev
  let g ← estimateOptimumKernelGrid env .derivFlat 0
  let nmbSumsPrev := u32 (g.1 * g.2)
  let d_derivativeSumsPrev ← malloc nmbSumsPrev
  run env .derivFlat g.1 g.2
    (logLikelihoodDerivFlatKernel prodAmpFlat d_likelihoods nmbEvents d_derivativeSumsPrev (u32 (g.1 * g.2)))
  let d_derivativeSumsPrev ← cascadedKernelSum (sumKernelCaller env) 6 d_derivativeSumsPrev nmbSumsPrev 1
  let derivativeFlat ← fetch d_derivativeSumsPrev
  free d_derivativeSumsPrev
  free d_derivTerms
  free d_likelihoods
  pure (derivatives, derivativeFlat)

/-- likelihoodInterface.cu:139-166 `initCudaDevice` (with a device of the version the driver reports). -/
def initCudaDevice (env : Env) : Host Bool := fun d =>
  if env.nmbDevices = 0 then .ok (false, { d with initialized := false })
  else .ok (true, { d with initialized := true, prop := env.prop })

/-- likelihoodInterface.cu:169-190 `closeCudaDevice`; `cudaDeviceReset` releases all device memory. -/
def closeCudaDevice : Host Unit := do
  modify fun d => { d with nmbEvents := 0, nW0 := 0, nW1 := 0, nWMax := 0, rank := 0 }
  let d ← get
  if d.decayAmps ≠ 0 then
    free d.decayAmps
    modify fun d => { d with decayAmps := 0 }
  let d ← get
  if d.initialized then modify fun d => { d with heap := fun _ => none }
  modify fun d => { d with initialized := false }

/-- assignment to an element of a host array. -/
def setHost (xs : List ℂ) (i : ℕ) (z : ℂ) : Outcome (List ℂ) := if i < xs.length then .ok (xs.set i z) else .ub
/-- element of a host array. -/
def getHost (xs : List ℂ) (i : ℕ) : Outcome ℂ :=
  match xs[i]? with
  | some z => .ok z
  | none => .ub

/-- index triples `(iRefl, iWave, iEvt)` in the order of the loops likelihoodInterface.cu:219-221. -/
def reshuffleLoop (nW : ℕ → ℕ) (nmbEvents : ℕ) : List (ℕ × ℕ × ℕ) :=
  (List.range 2).flatMap fun e => (List.range (nW e)).flatMap fun w => (List.range nmbEvents).map fun n => (e, w, n)

/-- likelihoodInterface.cu:213-233: change of the memory layout (elements of a new array are 0). -/
noncomputable def reshuffle (decayAmps : List ℂ) (nmbDecayAmps nmbEvents : ℕ) (nW : ℕ → ℕ) (nWMax : ℕ) : Outcome (List ℂ) :=
  (reshuffleLoop nW nmbEvents).foldlM (fun h i => do
    let offsetOld := indicesToOffset [i.2.2, i.1, i.2.1] [nmbEvents, 2, nWMax]
    let offsetNew := indicesToOffset [i.1, i.2.1, i.2.2] [2, nWMax, nmbEvents]
    let z ← getHost decayAmps offsetOld
    setHost h offsetNew z) (List.replicate nmbDecayAmps 0)

/-- likelihoodInterface.cu:193-243 `loadDecayAmps`. -/
noncomputable def loadDecayAmps (hostBytes : ℕ) (decayAmps : List ℂ) (nmbDecayAmps nmbEvents nW0 nW1 : ℕ) (reshuffleArray : Bool) : Host Bool := do
  let d ← get
  if !d.initialized then pure false
  else
    let nWMax := max nW0 nW1
    modify fun d => { d with nmbEvents := nmbEvents, nW0 := nW0, nW1 := nW1, nWMax := nWMax }
    let src ← (if reshuffleArray then
        StateT.lift (reshuffle decayAmps nmbDecayAmps nmbEvents (nmbWavesRefl nW0 nW1) nWMax)
      else pure decayAmps : Host (List ℂ))
    let p ← malloc (allocElems nmbDecayAmps)
    modify fun d => { d with decayAmps := p }
    copyToDevice (if reshuffleArray then 16 else hostBytes) p src (allocElems nmbDecayAmps)
    pure true

/-- likelihoodInterface.cu:117-136 `init`. -/
noncomputable def init (env : Env) (hostBytes : ℕ) (decayAmps : List ℂ) (nmbDecayAmps nmbEvents nW0 nW1 : ℕ) (reshuffleArray : Bool) : Host Bool := do
  if !(← initCudaDevice env) then pure false
  else loadDecayAmps hostBytes decayAmps nmbDecayAmps nmbEvents nW0 nW1 reshuffleArray

/-- pwaLikelihood.cc:1362-1374: copy of `_decayAmps[iRefl][iEvt][iWave]` into a zero-initialised array `[iRefl][iWave][iEvt]`. -/
noncomputable def decayAmpsArray (L : LikData) : Outcome (List ℂ) :=
  let dim := [2, max (L.nW 0) (L.nW 1), L.nmbEvents]
  ((List.range L.nmbEvents).flatMap fun n => (List.range 2).flatMap fun e => (List.range (L.nW e)).map fun w => (e, w, n)).foldlM
    (fun a i => setHost a (indicesToOffset [i.1, i.2.1, i.2.2] dim) (L.decayAmps i.1 i.2.2 i.2.1))
    (List.replicate (u32 (u32 (2 * max (L.nW 0) (L.nW 1)) * L.nmbEvents)) 0)

/-- pwaLikelihood.cc:1355-1378: end of `init` with CUDA enabled (the return value is ignored). -/
noncomputable def initLikelihood (env : Env) (hostBytes : ℕ) (L : LikData) : Host Unit := do
  let a ← (StateT.lift (decayAmpsArray L) : Host (List ℂ))
  let _ ← init env hostBytes a (u32 (u32 (2 * max (L.nW 0) (L.nW 1)) * L.nmbEvents)) L.nmbEvents (L.nW 0) (L.nW 1) false
  pure ()

/-- elements of the array `prodAmps[iRank][iRefl][iWave]` of extents `[rank][2][_nmbWavesReflMax]` in memory order. -/
def flatten (rank nWMax : ℕ) (V : Amps) : List ℂ :=
  (List.range rank).flatMap fun r => (List.range 2).flatMap fun e => (List.range nWMax).map fun w => V (r, e, w)

/-- pwaLikelihood.cc:318-440 `DoEval` with `_cudaEnabled`. -/
noncomputable def doEvalCuda (env : Env) (hostBytes : ℕ) (L : LikData) (par : ℕ → ℝ) : Host ℝ := do
  let p := copyFromParArray L.rank L.nW par
  let prodAmps := flatten L.rank (max (L.nW 0) (L.nW 1)) p.1
  let logLik ← logLikelihood env hostBytes prodAmps prodAmps.length p.2 L.rank
  pure (logLik + L.nmbEvt * L.normFactor p.1 p.2 + L.priorValue p.1)

/-- a complex number of the array `derivatives` that is used in a calculation; indeterminate values are `ub`. -/
def asComplex : Option (Option Val) → Outcome ℂ
  | some (some (.cx z)) => .ok z
  | _ => .ub

/-- pwaLikelihood.cc:461-637 `Gradient` with `_cudaEnabled`, writing into `out`. -/
noncomputable def gradientCuda (env : Env) (hostBytes : ℕ) (L : LikData) (pd : ParData) (par out : ℕ → ℝ) : Host (ℕ → ℝ) := do
  let p := copyFromParArray L.rank L.nW par
  let nWMax := max (L.nW 0) (L.nW 1)
  let prodAmps := flatten L.rank nWMax p.1
  let r ← logLikelihoodDeriv env hostBytes prodAmps prodAmps.length p.2 L.rank
  let derivs ← (StateT.lift ((slots L.rank L.nW).mapM fun s => do
    let z ← asComplex r.1[(s.1 * 2 + s.2.1) * nWMax + s.2.2]?
    pure (s, z + (∑ j ∈ Finset.range (L.nW s.2.1), p.1 (s.1, s.2.1, j) * (starRingEnd ℂ) (L.accMatrix s.2.1 s.2.2 j)) * ((2 * L.nmbEvt : ℝ) : ℂ)
      - L.priorDeriv p.1 s)) : Host (List (Slot × ℂ)))
  let derivatives : Slot → ℂ := fun s => ((derivs.find? fun x => x.1 == s).map (·.2)).getD 0
  pure (copyToParArray L.rank L.nW pd derivatives (r.2 + p.2 * (2 * L.nmbEvt) * L.totAcc) out)

end Rpwa.Cuda
