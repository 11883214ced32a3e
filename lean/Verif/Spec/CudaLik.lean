import Verif.Model.CudaLik
/-!
# Specification for C84-C86: the likelihood on a CUDA device -/
namespace Rpwa.Cuda
open Rpwa.Lik

/-- a usable CUDA device: there is one, it has a multiprocessor, every kernel can run with blocks of one warp, and the largest
occupancy grid has fewer than 2^31 threads. -/
structure Hardware (env : Env) : Prop where
  device : 0 < env.nmbDevices
  warp : 0 < env.prop.warpSize
  mp : 0 < env.prop.multiProcessorCount
  block : ∀ k, env.prop.warpSize ≤ env.maxThreadsPerBlock k
  size : ∀ k, env.prop.multiProcessorCount * env.maxThreadsPerBlock k < 2 ^ 31

/-- the data set is small enough for `unsigned int`: byte counts of the amplitude arrays (16 bytes per amplitude), numbers of events,
elements of the arrays on the device. -/
structure SizesOk (env : Env) (L : LikData) : Prop where
  decayAmps : 2 * max (L.nW 0) (L.nW 1) * L.nmbEvents * 16 < 2 ^ 32
  prodAmps : L.rank * 2 * max (L.nW 0) (L.nW 1) * 16 < 2 ^ 32
  events : L.nmbEvents ≤ 2 ^ 31
  terms : L.rank * 2 * L.nmbEvents ≤ 2 ^ 32
  sums : ∀ k, L.rank * 2 * max (L.nW 0) (L.nW 1) * (env.prop.multiProcessorCount * env.maxThreadsPerBlock k) ≤ 2 ^ 32

/-- states of the device in the course of a fit: `init` of the likelihood, then any number of function and gradient calls. -/
inductive Session (env : Env) (L : LikData) : Dev → Prop
  | init {d : Dev} : initLikelihood env 16 L Dev.start = .ok ((), d) → Session env L d
  | eval {d d' : Dev} {par : ℕ → ℝ} {x : ℝ} : Session env L d → doEvalCuda env 16 L par d = .ok (x, d') → Session env L d'
  | gradient {d d' : Dev} {pd : ParData} {par out : ℕ → ℝ} {g : ℕ → ℝ} : Session env L d → gradientCuda env 16 L pd par out d = .ok (g, d') →
      Session env L d'

/-- number of elements of the device arrays that are allocated. -/
def Dev.live (d : Dev) (p : ℕ) : Option ℕ := (d.heap p).map Block.len

end Rpwa.Cuda
