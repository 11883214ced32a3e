import Verif.Spec.CudaLik
import Verif.Lemmas.CudaSession
import Verif.Props.Likelihood
/-!
# C84-C86: the likelihood on a CUDA device -/
namespace Rpwa.Cuda
open Rpwa.Lik

/-- **C84.** On every usable device and for every data set within the size limits initialisation succeeds. -/
theorem cuda_init {env : Env} {L : LikData} (hH : Hardware env) (hS : SizesOk env L) :
    ∃ d, initLikelihood env 16 L Dev.start = .ok ((), d) ∧ Session env L d := by
  obtain ⟨d, h, _⟩ := initLikelihood_spec (d := Dev.start) hH hS WF.start
  exact ⟨d, h, .init h⟩

/-- **C84.** In every state of a fit, on every usable device and for every order in which the threads run, the function value is that
of the calculation on the CPU, and device memory is afterwards exactly as before the call. -/
theorem cuda_eval {env : Env} {L : LikData} {d : Dev} (hH : Hardware env) (hS : SizesOk env L) (h : Session env L d) (par : ℕ → ℝ) :
    ∃ d', doEvalCuda env 16 L par d = .ok (L.doEval par, d') ∧ d'.heap = d.heap ∧ Session env L d' := by
  obtain ⟨hL, hp, _⟩ := h.loaded hH hS
  obtain ⟨n, l, _, e⟩ := eval_spec hL (hp ▸ hS.fits) par
  exact ⟨_, e, rfl, .eval h e⟩

/-- **C85.** The same for the gradient. -/
theorem cuda_gradient {env : Env} {L : LikData} {d : Dev} (hH : Hardware env) (hS : SizesOk env L) (h : Session env L d) (pd : ParData)
    (par out : ℕ → ℝ) :
    ∃ d', gradientCuda env 16 L pd par out d = .ok (L.gradient pd par out, d') ∧ d'.heap = d.heap ∧ Session env L d' := by
  obtain ⟨hL, hp, _⟩ := h.loaded hH hS
  obtain ⟨n, l, _, e⟩ := gradient_spec hL (hp ▸ hS.fits) pd par out
  exact ⟨_, e, rfl, .gradient h e⟩

/-- **C85.** The gradient returned by the device is the derivative of the function values returned by the device. -/
theorem cuda_gradient_is_derivative {env : Env} {L : LikData} {d d1 : Dev} (hH : Hardware env) (hS : SizesOk env L) (h : Session env L d)
    {wl : WaveList} {pd : ParData} {m : ℝ} (hm : L.Matches wl pd m) (hI : L.AccHermitian) {par out : ℕ → ℝ} (hdef : L.DefinedAt par) {k : ℕ}
    (hk : k < pd.nmbPars) (hprior : L.PriorDefinedAt pd par k) {f : ℝ → ℝ} {g : ℕ → ℝ}
    (hf : ∀ x, ∃ d', doEvalCuda env 16 L (Function.update par k x) d = .ok (f x, d'))
    (hg : gradientCuda env 16 L pd par out d = .ok (g, d1)) : HasDerivAt f (g k) (par k) := by
  have e1 : f = fun x => L.doEval (Function.update par k x) := by
    funext x
    obtain ⟨d', e⟩ := hf x
    obtain ⟨d'', e', _⟩ := cuda_eval hH hS h (Function.update par k x)
    rw [e'] at e
    injection e with e
    exact (congrArg Prod.fst e).symm
  have e2 : g = L.gradient pd par out := by
    obtain ⟨d'', e', _⟩ := cuda_gradient hH hS h pd par out
    rw [e'] at hg
    injection hg with e
    exact (congrArg Prod.fst e).symm
  rw [e1, e2]
  exact gradient_is_derivative L wl pd m hm hI par out hdef k hk hprior

/-- **C84.** In every state of a fit exactly one device array is allocated, that of the decay amplitudes: nothing leaks. -/
theorem cuda_no_leak {env : Env} {L : LikData} {d : Dev} (hH : Hardware env) (hS : SizesOk env L) (h : Session env L d) (p : ℕ) :
    d.live p = if p = d.decayAmps then some (2 * max (L.nW 0) (L.nW 1) * L.nmbEvents) else none := by
  have hd : d.decayAmps = 1 := by
    induction h with
    | init e =>
      obtain ⟨d', h1, _, _, _, h5, _⟩ := initLikelihood_spec (d := Dev.start) hH hS WF.start
      rw [h1] at e
      cases e
      exact h5
    | @eval d d' par x h e ih =>
      obtain ⟨hL, hp, _⟩ := h.loaded hH hS
      obtain ⟨n', l', hn, he⟩ := eval_spec hL (hp ▸ hS.fits) par
      rw [he] at e
      cases e
      exact ih
    | @gradient d d' pd par out g h e ih =>
      obtain ⟨hL, hp, _⟩ := h.loaded hH hS
      obtain ⟨n', l', hn, he⟩ := gradient_spec hL (hp ▸ hS.fits) pd par out
      rw [he] at e
      cases e
      exact ih
  obtain ⟨_, _, h1, h2⟩ := h.loaded hH hS
  rw [hd]
  by_cases hp : p = 1
  · rw [if_pos hp, hp]; exact h2
  · rw [if_neg hp]
    unfold Dev.live
    rw [h1 p hp]
    rfl

/-- **C86.** The grid chosen for a kernel can be launched, has at least the requested number of threads, and its blocks consist of
whole warps. -/
theorem grid_covers {env : Env} {d : Dev} (hH : Hardware env) (hd : d.prop = env.prop) (k : Kernel) (n : ℕ) :
    ∃ nb nt, estimateOptimumKernelGrid env k n d = .ok ((nb, nt), d) ∧ 0 < nb ∧ 0 < nt ∧ nt ≤ env.maxThreadsPerBlock k ∧ n ≤ nb * nt ∧
      (0 < n → nb * nt < n + env.maxThreadsPerBlock k) ∧ env.prop.warpSize ∣ nt := by
  have hb := hH.block k
  obtain ⟨nb, nt, e, h1, h2, h3, h4, _, h6⟩ := estimate_spec env k n d (by rw [hd]; exact hH.warp) (by rw [hd]; exact hH.mp) (by rw [hd]; exact hb)
  refine ⟨nb, nt, e, h1, h2, h3, h4, h6, ?_⟩
  unfold estimateOptimumKernelGrid at e
  rw [hd] at e
  dsimp only at e
  rw [if_neg (by have := hH.warp; omega)] at e
  have hmax : env.prop.warpSize ∣ (if env.maxThreadsPerBlock k > env.prop.warpSize then env.maxThreadsPerBlock k / env.prop.warpSize * env.prop.warpSize
      else env.maxThreadsPerBlock k) := by
    by_cases hc : env.maxThreadsPerBlock k > env.prop.warpSize
    · rw [if_pos hc]; exact Nat.dvd_mul_left _ _
    · rw [if_neg hc, show env.maxThreadsPerBlock k = env.prop.warpSize by omega]
  have fin : ∀ {a b : ℕ}, (Outcome.ok ((a, b), d) : Outcome ((ℕ × ℕ) × Dev)) = .ok ((nb, nt), d) → b = nt := by
    intro a b h
    cases h
    rfl
  by_cases hn : n = 0
  · rw [if_pos hn] at e
    rw [← fin e]; exact hmax
  · rw [if_neg hn] at e
    revert e hmax
    generalize (if env.maxThreadsPerBlock k > env.prop.warpSize then env.maxThreadsPerBlock k / env.prop.warpSize * env.prop.warpSize
      else env.maxThreadsPerBlock k) = M
    intro e hmax
    by_cases h0 : M = 0
    · rw [if_pos h0] at e; cases e
    · rw [if_neg h0] at e
      by_cases h5 : n / M ≥ env.prop.multiProcessorCount
      · rw [if_pos h5] at e
        rw [← fin e]; exact hmax
      · rw [if_neg h5] at e
        revert e
        generalize (if n % env.prop.multiProcessorCount > 0 then n / env.prop.multiProcessorCount + 1 else n / env.prop.multiProcessorCount) = t0
        intro e
        have ht : env.prop.warpSize ∣ (if t0 > env.prop.warpSize then t0 / env.prop.warpSize * env.prop.warpSize else env.prop.warpSize) := by
          by_cases hc : t0 > env.prop.warpSize
          · rw [if_pos hc]; exact Nat.dvd_mul_left _ _
          · rw [if_neg hc]
        revert e ht
        generalize (if t0 > env.prop.warpSize then t0 / env.prop.warpSize * env.prop.warpSize else env.prop.warpSize) = t1
        intro e ht
        by_cases h7 : t1 = 0
        · rw [if_pos h7] at e; cases e
        · rw [if_neg h7] at e
          rw [← fin e]; exact ht

/-- **C86.** Amplitudes given event by event (`[iEvt][iRefl][iWave]`) and reshuffled by the interface give the same function values. -/
theorem init_reshuffled {env : Env} {L : LikData} (hH : Hardware env) (hS : SizesOk env L) (xs : List ℂ)
    (hx : ∀ e w n, e < 2 → w < L.nW e → n < L.nmbEvents → xs[(n * 2 + e) * max (L.nW 0) (L.nW 1) + w]? = some (L.decayAmps e n w)) :
    ∃ d, init env 16 xs (2 * max (L.nW 0) (L.nW 1) * L.nmbEvents) L.nmbEvents (L.nW 0) (L.nW 1) true Dev.start = .ok (true, d) ∧
      ∀ par, ∃ d', doEvalCuda env 16 L par d = .ok (L.doEval par, d') ∧ d'.heap = d.heap := by
  have hs : 2 * wMax L * L.nmbEvents * 16 < 2 ^ 32 := hS.decayAmps
  obtain ⟨ys, e1, hy⟩ := reshuffle_spec (L := L) (xs := xs) (by omega) (fun i hi => hx i.1 i.2.1 i.2.2 hi.1 hi.2.1 hi.2.2)
  obtain ⟨d, h1, hL, hp, _⟩ := init_spec (d := Dev.start) hH hs WF.start xs ys true hy (by rw [if_pos rfl]; exact e1)
  refine ⟨d, h1, fun par => ?_⟩
  obtain ⟨n, l, _, e⟩ := eval_spec hL (hp ▸ hS.fits) par
  exact ⟨_, e, rfl⟩

/-- `L1` with the events and decay amplitudes of `L2`. -/
def withData (L1 L2 : LikData) : LikData := { L1 with nmbEvents := L2.nmbEvents, decayAmps := L2.decayAmps }

/-- **C86.** The device holds one data set for the whole process.  If a second likelihood object with the same numbers of waves is
initialised during a fit, it gets right values; the first object from then on silently sums over the events of the second; the array of
the first stays allocated and nothing points to it any more. -/
theorem second_init_takes_over {env : Env} {L1 L2 : LikData} {d : Dev} (hH : Hardware env) (hS1 : SizesOk env L1) (hS2 : SizesOk env L2)
    (h : Session env L1 d) (h0 : L1.nW 0 = L2.nW 0) (h1 : L1.nW 1 = L2.nW 1) (hr : L1.rank = L2.rank) :
    ∃ d', initLikelihood env 16 L2 d = .ok ((), d') ∧ (∀ par, ∃ d'', doEvalCuda env 16 L2 par d' = .ok (L2.doEval par, d'') ∧ d''.heap = d'.heap) ∧
      (∀ par, ∃ d'', doEvalCuda env 16 L1 par d' =
        .ok (L1.doEval par + (∑ n ∈ Finset.range L2.nmbEvents, -Real.log ((withData L1 L2).sigma (L1.amps par) (L1.flat par) n))
          - ∑ n ∈ Finset.range L1.nmbEvents, -Real.log (L1.sigma (L1.amps par) (L1.flat par) n), d'') ∧ d''.heap = d'.heap) ∧
      d'.heap d.decayAmps = d.heap d.decayAmps ∧ (d.heap d.decayAmps).isSome ∧ d'.decayAmps ≠ d.decayAmps := by
  obtain ⟨hL, hp, _, _⟩ := h.loaded hH hS1
  obtain ⟨d', e, hL2, hp2, _, h5, h6, _⟩ := initLikelihood_spec (d := d) hH hS2 hL.wf
  have hold := hL.old
  have hsome : (d.heap d.decayAmps).isSome := by
    have := cuda_no_leak hH hS1 h d.decayAmps
    rw [if_pos rfl] at this
    unfold Dev.live at this
    cases hc : d.heap d.decayAmps with
    | none => rw [hc] at this; cases this
    | some b => rfl
  refine ⟨d', e, ?_, ?_, h6 _ (by omega), hsome, by omega⟩
  · intro par
    obtain ⟨n, l, _, e⟩ := eval_spec hL2 (hp2 ▸ hS2.fits) par
    exact ⟨_, e, rfl⟩
  · intro par
    have hw : wMax (withData L1 L2) = wMax L2 := by show max (L1.nW 0) (L1.nW 1) = max (L2.nW 0) (L2.nW 1); rw [h0, h1]
    have hL3 : Loaded env (withData L1 L2) d' := by
      refine ⟨hL2.wf, hL2.prop, hL2.nmbEvents, hL2.nW0.trans h0.symm, hL2.nW1.trans h1.symm, hL2.nWMax.trans hw.symm, hL2.old, ?_⟩
      intro e w n he hw' hn
      rw [hw]
      refine hL2.decay e w n he ?_ hn
      have hw'' : w < L1.nW e := hw'
      rcases (by omega : e = 0 ∨ e = 1) with rfl | rfl
      · rw [← h0]; exact hw''
      · rw [← h1]; exact hw''
    have f := hS2.fits
    have hF3 : Fits env (withData L1 L2) d'.prop := by
      rw [hp2]
      have e1 : (withData L1 L2).rank = L2.rank := hr
      exact ⟨by rw [e1, hw]; exact f.prod, by rw [hw]; exact f.decay, f.events, by rw [e1]; exact f.terms, fun k => by rw [e1, hw]; exact f.sums k⟩
    obtain ⟨n, l, _, e⟩ := logLikelihood_spec hL3 hF3 (L1.amps par) (L1.flat par)
    refine ⟨{ d' with next := n, launches := l }, ?_, rfl⟩
    unfold doEvalCuda
    refine (bind_ok e).trans ?_
    refine congrArg (fun x => Outcome.ok (x, _)) ?_
    show _ + L1.nmbEvt * L1.normFactor (L1.amps par) (L1.flat par) + L1.priorValue (L1.amps par) = _
    have : L1.doEval par = (∑ ev ∈ Finset.range L1.nmbEvents, -Real.log (L1.sigma (L1.amps par) (L1.flat par) ev))
      + L1.nmbEvt * L1.normFactor (L1.amps par) (L1.flat par) + L1.priorValue (L1.amps par) := rfl
    rw [this]
    have e2 : (withData L1 L2).nmbEvents = L2.nmbEvents := rfl
    rw [e2]
    ring

/-- **C86.** Closing the device releases all device memory. -/
theorem close_releases {env : Env} {L : LikData} {d : Dev} (hH : Hardware env) (hS : SizesOk env L) (h : Session env L d) :
    ∃ d', closeCudaDevice d = .ok ((), d') ∧ ∀ p, d'.heap p = none := by
  obtain ⟨hL, _, h1, h2⟩ := h.loaded hH hS
  have hl := cuda_no_leak hH hS h
  have hs := hl d.decayAmps
  rw [if_pos rfl] at hs
  unfold Dev.live at hs
  obtain ⟨b, hb⟩ : ∃ b, d.heap d.decayAmps = some b := by
    cases hc : d.heap d.decayAmps with
    | none => rw [hc] at hs; cases hs
    | some b => exact ⟨b, rfl⟩
  have hne : d.decayAmps ≠ 0 := by
    intro h0
    rw [h0, hL.wf.null] at hb
    cases hb
  let d1 : Dev := { d with nmbEvents := 0, nW0 := 0, nW1 := 0, nWMax := 0, rank := 0 }
  let d2 : Dev := { d1 with heap := Function.update d.heap d.decayAmps none }
  have he : ∀ p, d2.heap p = none := by
    intro p
    by_cases hp : p = d.decayAmps
    · subst hp; exact Function.update_self ..
    · show Function.update d.heap d.decayAmps none p = none
      rw [Function.update_of_ne hp]
      have := hl p
      rw [if_neg hp] at this
      unfold Dev.live at this
      cases hc : d.heap p with
      | none => rfl
      | some b => rw [hc] at this; cases this
  by_cases hi : d.initialized = true
  · refine ⟨{ d2 with decayAmps := 0, heap := fun _ => none, initialized := false }, ?_, fun p => rfl⟩
    unfold closeCudaDevice
    refine (bind_ok (a := ()) (d' := d1) rfl).trans ?_
    refine (bind_ok (a := d1) (d' := d1) rfl).trans ?_
    rw [if_pos (show d1.decayAmps ≠ 0 from hne)]
    refine (bind_ok (a := ()) (d' := d2) ?_).trans ?_
    · exact free_ok (d := d1) hne hb
    refine (bind_ok (a := ()) (d' := { d2 with decayAmps := 0 }) rfl).trans ?_
    refine (bind_ok (a := { d2 with decayAmps := 0 }) (d' := { d2 with decayAmps := 0 }) rfl).trans ?_
    rw [if_pos (show ({ d2 with decayAmps := 0 } : Dev).initialized = true from hi)]
    rfl
  · refine ⟨{ d2 with decayAmps := 0, initialized := false }, ?_, he⟩
    unfold closeCudaDevice
    refine (bind_ok (a := ()) (d' := d1) rfl).trans ?_
    refine (bind_ok (a := d1) (d' := d1) rfl).trans ?_
    rw [if_pos (show d1.decayAmps ≠ 0 from hne)]
    refine (bind_ok (a := ()) (d' := d2) ?_).trans ?_
    · exact free_ok (d := d1) hne hb
    refine (bind_ok (a := ()) (d' := { d2 with decayAmps := 0 }) rfl).trans ?_
    refine (bind_ok (a := { d2 with decayAmps := 0 }) (d' := { d2 with decayAmps := 0 }) rfl).trans ?_
    rw [if_neg (show ¬ ({ d2 with decayAmps := 0 } : Dev).initialized = true from hi)]
    rfl

/-- **C86.** From 2^28 amplitudes on the byte count of the device array wraps: without an error only the remainder of the number of
amplitudes modulo 2^28 is allocated and copied; the kernels read the others outside the array. -/
theorem large_data_truncated {env : Env} {L : LikData} (hH : Hardware env) (hN : L.nmbEvents ≠ 0)
    (hs : 2 * max (L.nW 0) (L.nW 1) * L.nmbEvents < 2 ^ 32) :
    ∃ d, initLikelihood env 16 L Dev.start = .ok ((), d) ∧ d.nmbEvents = L.nmbEvents ∧
      d.live d.decayAmps = some (2 * max (L.nW 0) (L.nW 1) * L.nmbEvents % 2 ^ 28) ∧
      ∀ e w n, e < 2 → w < L.nW e → n < L.nmbEvents →
        (d.heap.get d.decayAmps ((e * max (L.nW 0) (L.nW 1) + w) * L.nmbEvents + n) =
          if (e * max (L.nW 0) (L.nW 1) + w) * L.nmbEvents + n < 2 * max (L.nW 0) (L.nW 1) * L.nmbEvents % 2 ^ 28 then
            some (.cx (L.decayAmps e n w)) else none) := by
  have hs' : 2 * wMax L * L.nmbEvents < 2 ^ 32 := hs
  have hw : 2 * wMax L < 2 ^ 32 := by
    have h2 : 2 * wMax L ≤ 2 * wMax L * L.nmbEvents := Nat.le_mul_of_pos_right _ (by omega)
    omega
  obtain ⟨hu, xs, e1, hx⟩ := decayAmpsArray_spec (L := L) hs' (fun _ => hw)
  have ha : allocElems (2 * wMax L * L.nmbEvents) = 2 * wMax L * L.nmbEvents % 2 ^ 28 := by
    unfold allocElems u32
    omega
  obtain ⟨m, hm⟩ : ∃ m, 2 * wMax L * L.nmbEvents % 2 ^ 28 = m := ⟨_, rfl⟩
  have hmle : m ≤ 2 * wMax L * L.nmbEvents := by rw [← hm]; exact Nat.mod_le _ _
  let b : Block := ⟨m, fun o => if o < m then xs[o]?.map Val.cx else none⟩
  let d0 : Dev := { Dev.start with initialized := true, prop := env.prop }
  let d1 : Dev := { d0 with nmbEvents := L.nmbEvents, nW0 := L.nW 0, nW1 := L.nW 1, nWMax := wMax L }
  let d2 : Dev := { d1 with heap := Function.update Dev.start.heap 1 (some b), next := 2, decayAmps := 1 }
  have hb : d2.heap 1 = some b := by
    show Function.update Dev.start.heap 1 (some b) 1 = some b
    rw [Function.update_self]
  refine ⟨d2, ?_, rfl, ?_, ?_⟩
  · unfold initLikelihood
    refine (bind_ok (lift_ok e1)).trans ?_
    rw [show u32 (u32 (2 * max (L.nW 0) (L.nW 1)) * L.nmbEvents) = _ from hu]
    refine (bind_ok (a := true) (d' := d2) ?_).trans rfl
    unfold init
    have e0 : initCudaDevice env Dev.start = .ok (true, d0) := by
      unfold initCudaDevice
      rw [if_neg (by have := hH.device; omega)]
    refine (bind_ok e0).trans ?_
    rw [if_neg (by decide)]
    unfold loadDecayAmps
    refine (bind_ok (a := d0) (d' := d0) rfl).trans ?_
    rw [if_neg (by show ¬ (!true) = true; decide)]
    refine (bind_ok (a := ()) (d' := d1) rfl).trans ?_
    rw [if_neg (by decide), if_neg (by decide)]
    refine (bind_ok (a := xs) (d' := d1) rfl).trans ?_
    rw [ha, hm]
    refine (bind_ok (a := 1) rfl).trans ?_
    refine (bind_ok (a := ()) rfl).trans ?_
    refine (bind_ok (a := ()) (d' := d2) ?_).trans rfl
    unfold copyToDevice
    dsimp only
    have : (Function.update d1.heap d1.next (some ⟨m, fun _ => none⟩) : Heap) 1 = some ⟨m, fun _ => none⟩ := Function.update_self ..
    rw [this]
    dsimp only
    rw [if_neg (by rw [hx.1]; omega)]
    refine congrArg (fun h => Outcome.ok ((), ({ d2 with heap := h } : Dev))) ?_
    exact Function.update_idem ..
  · show (d2.heap 1).map Block.len = _
    rw [hb]
    exact congrArg some hm.symm
  · intro e w n he hw' hn
    rw [show 2 * max (L.nW 0) (L.nW 1) * L.nmbEvents % 2 ^ 28 = m from hm]
    show d2.heap.get 1 _ = _
    unfold Heap.get
    rw [hb]
    dsimp only
    by_cases hlt : (e * max (L.nW 0) (L.nW 1) + w) * L.nmbEvents + n < m
    · rw [if_pos hlt, if_pos hlt]
      show (if _ < m then _ else _) = _
      rw [if_pos hlt]
      have := hx.2 (e, w, n) ⟨he, hw', hn⟩
      dsimp only at this
      rw [this]
      rfl
    · rw [if_neg hlt, if_neg hlt]

/-- **C86.** The instantiation with `float` cannot be used: `std::complex<float>` has 8 bytes, the device type 16; loading any
amplitudes reads past the end of the host array. -/
theorem float_init_ub {env : Env} {L : LikData} (hH : Hardware env) (hS : SizesOk env L) (hN : L.nmbEvents ≠ 0) (hW : max (L.nW 0) (L.nW 1) ≠ 0)
    (d : Dev) : initLikelihood env 8 L d = .ub := by
  have hs : 2 * wMax L * L.nmbEvents * 16 < 2 ^ 32 := hS.decayAmps
  obtain ⟨hu, xs, e1, hx⟩ := decayAmpsArray_spec (L := L) (by omega) (wMax_small hS)
  unfold initLikelihood
  refine (bind_ok (lift_ok e1)).trans ?_
  rw [show u32 (u32 (2 * max (L.nW 0) (L.nW 1)) * L.nmbEvents) = _ from hu]
  have hinit : init env 8 xs (2 * wMax L * L.nmbEvents) L.nmbEvents (L.nW 0) (L.nW 1) false d = .ub := by
    unfold init
    have e0 : initCudaDevice env d = .ok (true, { d with initialized := true, prop := env.prop }) := by
      unfold initCudaDevice
      rw [if_neg (by have := hH.device; omega)]
    refine (bind_ok e0).trans ?_
    rw [if_neg (by decide)]
    unfold loadDecayAmps
    refine (bind_ok (a := { d with initialized := true, prop := env.prop }) rfl).trans ?_
    rw [if_neg (by show ¬ (!true) = true; decide)]
    refine (bind_ok (a := ()) rfl).trans ?_
    rw [if_neg (by decide), if_neg (by decide)]
    refine (bind_ok (a := xs) rfl).trans ?_
    refine (bind_ok (a := d.next) rfl).trans ?_
    refine (bind_ok (a := ()) rfl).trans ?_
    have hpos : 2 * wMax L * L.nmbEvents ≠ 0 := Nat.mul_ne_zero (Nat.mul_ne_zero (by decide) hW) hN
    rw [allocElems_eq hs]
    have : ∀ dd : Dev, copyToDevice 8 d.next xs (2 * wMax L * L.nmbEvents) dd = .ub := by
      intro dd
      unfold copyToDevice
      cases dd.heap d.next with
      | none => rfl
      | some b =>
        dsimp only
        rw [if_pos (Or.inr (Or.inr ⟨hpos, by decide⟩))]
    show (copyToDevice 8 d.next xs (2 * wMax L * L.nmbEvents) _ >>= _) = _
    rw [this]
    rfl
  show (init env 8 xs (2 * wMax L * L.nmbEvents) L.nmbEvents (L.nW 0) (L.nW 1) false d >>= _) = _
  rw [hinit]
  rfl

theorem bind_inv {α β : Type} {x : Host α} {f : α → Host β} {d : Dev} {r : β × Dev} (h : (x >>= f) d = .ok r) :
    ∃ a d1, x d = .ok (a, d1) ∧ f a d1 = .ok r := by
  change (x d >>= fun p => f p.1 p.2) = .ok r at h
  cases hx : x d with
  | ok p => rw [hx] at h; exact ⟨p.1, p.2, rfl, h⟩
  | terminate => rw [hx] at h; cases h
  | ub => rw [hx] at h; cases h

/-- **C86.** A likelihood whose CUDA mode is switched on without an initialised device (`enableCuda` after `init`, or no device) never
returns a value. -/
theorem no_device_no_value {env : Env} {hostBytes : ℕ} {L : LikData} {d : Dev} (h : d.prop.warpSize = 0) (par : ℕ → ℝ) (x : ℝ) (d' : Dev) :
    doEvalCuda env hostBytes L par d ≠ .ok (x, d') := by
  intro e
  unfold doEvalCuda at e
  obtain ⟨_, _, e, _⟩ := bind_inv e
  unfold logLikelihood at e
  obtain ⟨p, d1, e1, e⟩ := bind_inv e
  unfold malloc at e1
  cases e1
  obtain ⟨_, d2, e2, e⟩ := bind_inv e
  have h2 : d2.prop = d.prop := by
    unfold copyToDevice at e2
    dsimp only at e2
    rw [Function.update_self] at e2
    dsimp only at e2
    split at e2
    · cases e2
    · cases e2; rfl
  obtain ⟨g, d3, e3, e⟩ := bind_inv e
  unfold estimateOptimumKernelGrid at e3
  rw [h2, h] at e3
  dsimp only at e3
  by_cases hm : env.maxThreadsPerBlock .logLikelihood > 0
  · rw [if_pos ⟨hm, rfl⟩] at e3
    cases e3
  · rw [if_neg (by omega), if_neg hm, if_pos rfl] at e3
    cases e3
    obtain ⟨_, _, e4, e⟩ := bind_inv e
    obtain ⟨_, _, e5, e⟩ := bind_inv e
    obtain ⟨_, _, e6, e⟩ := bind_inv e
    unfold run at e6
    rw [if_pos (Or.inr (Or.inl (by omega)))] at e6
    cases e6

/-- Non-vacuity: a device with two multiprocessors and warps of 32, 100 events, 3 + 2 waves, rank 2; every schedule. -/
theorem cuda_example (sched : ℕ → List ℕ) (decayAmps : ℕ → ℕ → ℕ → ℂ) : ∃ (env : Env) (L : LikData) (d : Dev), env.sched = sched ∧
    L.decayAmps = decayAmps ∧ L.nmbEvents = 100 ∧ L.rank = 2 ∧ L.nW 0 = 3 ∧ L.nW 1 = 2 ∧ Hardware env ∧ SizesOk env L ∧ Session env L d := by
  let env : Env := ⟨1, ⟨32, 2⟩, fun _ => 64, sched⟩
  let L : LikData := ⟨2, fun e => if e = 0 then 3 else 2, 100, decayAmps, fun _ _ _ => 0, 1, false, .flat, 1⟩
  have hH : Hardware env := ⟨show 0 < 1 by decide, show 0 < 32 by decide, show 0 < 2 by decide, fun _ => show 32 ≤ 64 by decide, fun _ => show 2 * 64 < 2 ^ 31 by decide⟩
  have hS : SizesOk env L := ⟨show 2 * max 3 2 * 100 * 16 < 2 ^ 32 by decide, show 2 * 2 * max 3 2 * 16 < 2 ^ 32 by decide, show 100 ≤ 2 ^ 31 by decide,
    show 2 * 2 * 100 ≤ 2 ^ 32 by decide, fun _ => show 2 * 2 * max 3 2 * (2 * 64) ≤ 2 ^ 32 by decide⟩
  obtain ⟨d, _, h⟩ := cuda_init hH hS
  exact ⟨env, L, d, rfl, rfl, rfl, rfl, rfl, rfl, hH, hS, h⟩

end Rpwa.Cuda
