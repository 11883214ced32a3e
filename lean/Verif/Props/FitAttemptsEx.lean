import Verif.Props.FitAttemptsMatrices
import Verif.Props.FitExamples
/-! # C88: examples -/
namespace Rpwa.Attempts

open Rpwa.Lik Rpwa.Fit Rpwa.PwaFit

/-- three different seeds out of a sequence with repetitions. -/
theorem seeds_example : seedsOf (fun i => 1000 + i / 2) 5 7 3 = some [1000, 1001, 1002] := by decide

/-- the parameters of the first fit, and two other points. -/
noncomputable def exPar : ℕ → ℕ → ℝ := fun k i => if i = 0 then (if k = 1 then 1 / 2 else 0) else 1

/-- Minus log-likelihoods of three fits; the second fit is the best one but has not converged. -/
noncomputable def exVal : ℕ → ℝ := fun k => if k = 0 then 3 else if k = 1 then 1 else 2

/-- **C88, an instance of `pwaFits_keep`.** Three fits with one wave and two events: the second has the smallest value and the third
is the best converged one. -/
theorem pwaFits_keep_example : ∃ (l : Lik) (B : ℕ → ℕ → ℕ → ℝ), l.fn.Matches l.waves l.pars 1 ∧
    l.pars.nmbParsFixed = (l.pars.params.filter (·.fixed)).length ∧ DistinctNames l ∧ PlainNames l ∧ 0 < l.fn.rank ∧
    (∀ k < 3, InverseOnFree l.pars (l.fn.hessian l.pars (exPar k)) (B k)) ∧
    (1 < 3 ∧ ∀ k < 3, exVal 1 ≤ exVal k ∧ (k < 1 → exVal 1 < exVal k)) ∧
    (2 < 3 ∧ decide (2 ≠ 1) = true ∧ ∀ k < 3, decide (k ≠ 1) = true → exVal 2 ≤ exVal k ∧ (k < 2 → exVal 2 < exVal k)) := by
  obtain ⟨d, hm, hl, hn, f0, f1, hfix⟩ := exLayout
  let l : Lik := ⟨exFn, exWaves, d, ⟨⟨fun _ _ => 1, fun _ _ => 1⟩, fun _ => 1, 3 / 4⟩⟩
  have hfree : (Finset.range d.nmbPars).filter (fun j => LikData.fixedAt d j = false) = {0, 1} := by
    rw [hn]
    ext j
    simp only [Finset.mem_filter, Finset.mem_range, Finset.mem_insert, Finset.mem_singleton]
    constructor
    · rintro ⟨h, _⟩; omega
    · rintro (rfl | rfl)
      · exact ⟨by omega, f0⟩
      · exact ⟨by omega, f1⟩
  have hinv : ∀ H B : ℕ → ℕ → ℝ, (H 0 0 * B 0 0 + H 0 1 * B 1 0 = 1 ∧ H 0 0 * B 0 1 + H 0 1 * B 1 1 = 0 ∧
      H 1 0 * B 0 0 + H 1 1 * B 1 0 = 0 ∧ H 1 0 * B 0 1 + H 1 1 * B 1 1 = 1) → InverseOnFree d H B := by
    intro H B
    unfold InverseOnFree
    rw [hfree]
    simp only [Finset.sum_pair (show (0 : ℕ) ≠ 1 by omega), hn]
    rintro ⟨h1, h2, h3, h4⟩ i k hi hk _ _
    have hi' : i = 0 ∨ i = 1 := by omega
    have hk' : k = 0 ∨ k = 1 := by omega
    rcases hi' with rfl | rfl <;> rcases hk' with rfl | rfl <;> simp [h1, h2, h3, h4]
  have hwave : ∀ e w : ℕ, e < 2 → w < exFn.nW e → e = 1 ∧ w = 0 := by
    intro e w _ hw
    have hw' : w < if e = 1 then 1 else 0 := hw
    split at hw'
    · exact ⟨by assumption, by omega⟩
    · omega
  -- the Hessian at (1/2, 1) is ((4, 2), (2, 5)), at (0, 1) it is ((-4, 0), (0, 7))
  refine ⟨l, fun k i j => if k = 1 then (if i = 0 ∧ j = 0 then 5 / 16 else if i = 1 ∧ j = 1 then 4 / 16 else -2 / 16)
    else (if i = 0 ∧ j = 0 then -1 / 4 else if i = 1 ∧ j = 1 then 1 / 7 else 0), hm, hfix, ?_, ?_, ?_, ?_, ?_, ?_⟩
  · intro i hi j hj _
    obtain ⟨h1, h2⟩ := (mem_waveIxs _ _).1 hi
    obtain ⟨h3, h4⟩ := (mem_waveIxs _ _).1 hj
    obtain ⟨a1, a2⟩ := hwave _ _ h1 h2
    obtain ⟨b1, b2⟩ := hwave _ _ h3 h4
    exact Prod.ext (a1.trans b1.symm) (a2.trans b2.symm)
  · intro r e w hr he hw
    obtain ⟨rfl, rfl⟩ := hwave e w he hw
    have hr0 : r = 0 := by have : r < 1 := hr; omega
    subst hr0
    have hname : (ampName l.waves (0, 1, 0)).toList = "V0_w".toList := by
      show (ampName ⟨fun e => if e = 1 then 1 else 0, fun _ _ => "w", fun _ _ => 0⟩ (0, 1, 0)).toList = _
      rw [ampName_toList, repr_digits.1]
      rfl
    rw [hname]
    refine ⟨?_, ?_, ?_⟩ <;> · rw [← hasSub_iff]; decide
  · exact Nat.one_pos
  · intro k hk
    obtain ⟨e1, e2, e3, e4⟩ := exHessian hl f0 (exPar k)
    apply hinv
    have hk' : k = 0 ∨ k = 1 ∨ k = 2 := by omega
    show (exFn.hessian d (exPar k) 0 0 * _ + exFn.hessian d (exPar k) 0 1 * _ = 1 ∧ exFn.hessian d (exPar k) 0 0 * _ + exFn.hessian d (exPar k) 0 1 * _ = 0 ∧
      exFn.hessian d (exPar k) 1 0 * _ + exFn.hessian d (exPar k) 1 1 * _ = 0 ∧ exFn.hessian d (exPar k) 1 0 * _ + exFn.hessian d (exPar k) 1 1 * _ = 1)
    rw [e1, e2, e3, e4]
    rcases hk' with rfl | rfl | rfl
    · simp [exPar]; norm_num
    · simp [exPar]; norm_num
    · simp [exPar]; norm_num
  · refine ⟨by omega, fun k hk => ?_⟩
    have hk' : k = 0 ∨ k = 1 ∨ k = 2 := by omega
    rcases hk' with rfl | rfl | rfl <;> simp [exVal] <;> norm_num
  · refine ⟨by omega, by decide, fun k hk hc => ?_⟩
    have hk' : k = 0 ∨ k = 1 ∨ k = 2 := by omega
    rcases hk' with rfl | rfl | rfl
    · simp [exVal]; norm_num
    · simp at hc
    · simp [exVal]

/-- an instance of the finding: two fits that did not converge, the first is better, but the second gets matrices. -/
theorem none_converged_example : ∃ (fit : ℕ → ℕ → Outcome FitResult) (rs : List FitResult), Fits fit [11, 12] rs ∧
    (∀ r ∈ rs, r.converged = false) ∧ FirstMin rs (fun _ => True) 0 ∧ (0 : ℕ) ≠ rs.length - 1 := by
  let r : ℝ → FitResult := fun x => { FitResult.new with logLikelihood := x, converged := false }
  refine ⟨fun k _ => .ok (r k), [r 0, r 1], ⟨rfl, ?_⟩, ?_, ⟨r 0, rfl, trivial, ?_⟩, by simp⟩
  · intro k s hk
    rcases k with _ | _ | k
    · exact ⟨r 0, rfl, by simp⟩
    · exact ⟨r 1, rfl, by simp⟩
    · simp at hk
  · intro x hx
    simp only [List.mem_cons, List.not_mem_nil, or_false] at hx
    rcases hx with rfl | rfl <;> rfl
  · intro j r' hj _
    rcases j with _ | _ | j
    · cases hj; exact ⟨le_rfl, fun h => by omega⟩
    · cases hj; exact ⟨zero_le_one, fun h => by omega⟩
    · simp at hj

end Rpwa.Attempts
