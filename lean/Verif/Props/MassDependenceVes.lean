import Verif.Props.MassDependenceS
import Verif.Props.PickersOther
import Verif.Model.PhaseSpace
/-!
# C55, C56: the VES version of the S wave, the Breit-Wigner function; C28: the directions of generated particles
-/

namespace Rpwa.MassDep

open Spec Rpwa.Phys Rpwa.Phys.Spec

/-- **C56**: the function `breitWigner` is the relativistic Breit-Wigner amplitude with mass-dependent width -/
theorem breitWigner_spec {M M0 Gamma0 q q0 : ℝ} {n : ℕ} (hn : n ≤ 7) (hM : 0 < M) (hM0 : 0 < M0) (hG : 0 < Gamma0) (hq : 0 < q) (hq0 : 0 < q0) :
    breitWigner M M0 Gamma0 (2 * n) q q0 = bw (M0 * Gamma0) M M0 (width Gamma0 M M0 n q q0) := by
  have ew : Gamma0 * (M0 / M) * (q / q0) * (barrierFactorSquared (2 * n) q / barrierFactorSquared (2 * n) q0) = width Gamma0 M M0 n q q0 := by
    unfold width
    rw [barrierFactorSquared_spec hn (by norm_num), barrierFactorSquared_spec hn (by norm_num), div_div_div_cancel_right₀]
    have := barrier_pos hn (q := 0.1973) (by norm_num)
    rw [barrierFactorSquared_spec hn (by norm_num)] at this
    intro h
    rw [h, div_zero] at this
    exact lt_irrefl _ this
  have hC : M0 * (Gamma0 * (M0 / M) * (q / q0) * (barrierFactorSquared (2 * n) q / barrierFactorSquared (2 * n) q0)) ≠ 0 := by
    have h1 := barrier_pos hn hq
    have h2 := barrier_pos hn hq0
    positivity
  have hf := bwForm_some (A := M0 * Gamma0) (B := M0 * M0 - M * M) (Or.inr hC)
  unfold breitWigner
  rw [if_neg hq0.ne']
  dsimp only
  have hne : (M0 * M0 - M * M) * (M0 * M0 - M * M) + M0 * (Gamma0 * (M0 / M) * (q / q0) * (barrierFactorSquared (2 * n) q / barrierFactorSquared (2 * n) q0)) *
      (M0 * (Gamma0 * (M0 / M) * (q / q0) * (barrierFactorSquared (2 * n) q / barrierFactorSquared (2 * n) q0))) ≠ 0 := by
    have := mul_self_pos.2 hC
    have := mul_self_nonneg (M0 * M0 - M * M)
    linarith
  unfold bwForm at hf
  rw [fdiv_some hne] at hf
  refine (Option.some.inj hf).trans ?_
  unfold bw
  rw [ew, show M0 * M0 - M * M = M0 ^ 2 - M ^ 2 by ring]

/-- **C56**: below the two-kaon threshold the VES version uses the other sheet: its phase space has a negative imaginary part -/
theorem ves_sheet (p : AMP) (hp : p.Physical) (hv : p.vesSheet = true) {M : ℝ} (hM : 0 < M) (h : M < 2 * p.kaonMean) :
    ∃ r, p.rho M = some r ∧ r.2 = ⟨0, -(Real.sqrt ((2 * p.kaonMean) ^ 2 - M ^ 2) / M)⟩ := by
  have hk : 0 ≤ p.kaonMean := by
    unfold AMP.kaonMean
    have := hp.kC
    have := hp.k0
    positivity
  obtain ⟨k1, e1, _, _⟩ := rho_equal' hM hp.piC.le
  obtain ⟨k2, e2, _, _⟩ := rho_equal' hM hp.pi0.le
  obtain ⟨k3, e3, _, _⟩ := rho_equal' hM hp.kC.le
  obtain ⟨k4, e4, _, _⟩ := rho_equal' hM hp.k0.le
  have hx : (M - (p.kaonMean + p.kaonMean)) * (M + (p.kaonMean + p.kaonMean)) * (M - (p.kaonMean - p.kaonMean)) * (M + (p.kaonMean - p.kaonMean)) / (4 * M * M) =
      -(((2 * p.kaonMean) ^ 2 - M ^ 2) / 4) := by
    rw [div_eq_iff (by positivity)]; ring
  have hpos : 0 < ((2 * p.kaonMean) ^ 2 - M ^ 2) / 4 := by nlinarith
  have e5 : breakupComplexF M p.kaonMean p.kaonMean = some ⟨0, Real.sqrt ((2 * p.kaonMean) ^ 2 - M ^ 2) / 2⟩ := by
    unfold breakupComplexF breakupMomentumComplex breakupMomentumSquared
    rw [if_neg hM.ne']
    dsimp only
    rw [if_neg (by simp), if_neg (fun h => absurd h.1 (by decide)), Option.map_some]
    show some (if _ < 0 then _ else _) = _
    rw [hx, if_pos (by linarith), abs_neg, abs_of_pos hpos, Real.sqrt_div (by nlinarith), show (4 : ℝ) = 2 ^ 2 by norm_num, Real.sqrt_sq (by norm_num)]
  unfold AMP.rho
  rw [e1, e2, e3, e4, e5]
  simp only [hv, if_true]
  refine ⟨_, rfl, ?_⟩
  have hs : 0 < Real.sqrt ((2 * p.kaonMean) ^ 2 - M ^ 2) / 2 := by
    have : 0 < Real.sqrt ((2 * p.kaonMean) ^ 2 - M ^ 2) := Real.sqrt_pos.2 (by linarith)
    linarith
  dsimp only
  rw [if_pos (show Real.sqrt ((2 * p.kaonMean) ^ 2 - M ^ 2) / 2 > 0 from hs)]
  apply Complex.ext
  · rw [Complex.div_ofReal_re]; simp
  · rw [Complex.div_ofReal_im]; simp; ring

/-- **C56**: the VES version subtracts, above the two-pion threshold, a Breit-Wigner amplitude of the f0(980) from the Au-Morgan-Pennington amplitude -/
theorem ampVes_above (p : AMP) (hp : p.Physical) (hf : p.piCharged + p.piCharged < 0.9837) {M : ℝ} (h : p.piCharged + p.piCharged < M) :
    ∃ q q0, Decays M p.piCharged p.piCharged q ∧ Decays 0.9837 p.piCharged p.piCharged q0 ∧ ∀ old T, p.amp old M = some T →
      p.ampVes old M = some (T - ⟨-0.3743, 0.3197⟩ * ((M / q : ℝ) * bw (0.9837 * (0.0376 * (q / q0))) M 0.9837 (0.0376 * (q / q0)))) := by
  have hM : 0 < M := by linarith [hp.piC]
  obtain ⟨q, d1, b1, _, p1⟩ := breakup_some hM hp.piC.le hp.piC.le h.le
  obtain ⟨q0, d2, b2, _, p2⟩ := breakup_some (M := 0.9837) (by norm_num) hp.piC.le hp.piC.le hf.le
  have hq := p1 h
  have hq0 := p2 hf
  refine ⟨q, q0, d1, d2, fun old T hT => ?_⟩
  unfold AMP.ampVes
  dsimp only
  rw [hT]
  simp only [Option.bind_eq_bind, Option.bind_some]
  rw [if_pos (show M > 2 * p.piCharged by linarith), b1, b2]
  simp only [Option.bind_some]
  rw [fdiv_some hq0.ne', Option.bind_some, fdiv_some hq.ne', Option.bind_some]
  have hC : (0.9837 : ℝ) * (0.0376 * (q / q0)) ≠ 0 := by positivity
  rw [bwForm_some (Or.inr hC), Option.bind_some]
  congr 2
  unfold bw
  rw [show (0.9837 : ℝ) * 0.9837 - M * M = 0.9837 ^ 2 - M ^ 2 by ring]
  push_cast
  ring

/-- below it, the amplitude is that of the Au-Morgan-Pennington parametrisation -/
theorem ampVes_below (p : AMP) {M : ℝ} (h : M ≤ 2 * p.piCharged) (old : ℂ) : p.ampVes old M = p.amp old M := by
  unfold AMP.ampVes
  dsimp only
  cases hT : p.amp old M with
  | none => rfl
  | some T =>
    simp only [Option.bind_eq_bind, Option.bind_some]
    rw [if_neg (not_lt.2 h)]
    simp

/-- the hypotheses hold for the masses of the particle data table, above and below the two-kaon threshold -/
example : (AMP.ves 0.13957 0.13498 0.49368 0.49761).Physical ∧ (0.13957 : ℝ) + 0.13957 < 0.9837 ∧
    (0.6 : ℝ) < 2 * (AMP.ves 0.13957 0.13498 0.49368 0.49761).kaonMean := by
  refine ⟨⟨?_, ?_, ?_, ?_⟩, by norm_num, ?_⟩
  all_goals unfold AMP.ves AMP.mSolution
  · norm_num
  · norm_num
  · norm_num
  · norm_num
  · unfold AMP.kaonMean; norm_num

end Rpwa.MassDep

namespace Rpwa.Gen
open MeasureTheory Set

/-- **isotropic decays**: the cosine of every polar angle is uniform between -1 and 1 -/
theorem pickAngles_cos (g : PS) (v : ℕ → ℝ) (i : ℕ) (hi : 1 ≤ i ∧ i < g.n) {c : ℝ} (h1 : -1 ≤ c) (h2 : c ≤ 1) :
    volume {x : ℝ | (0 < x ∧ x < 1) ∧ (g.pickAngles (fun _ => x) v).cosTheta i ≤ c} = ENNReal.ofReal ((c - -1) / (1 - -1)) := by
  have e : {x : ℝ | (0 < x ∧ x < 1) ∧ (g.pickAngles (fun _ => x) v).cosTheta i ≤ c} = {x | (0 < x ∧ x < 1) ∧ x ≤ (c - -1) / (1 - -1)} := by
    ext x
    refine and_congr_right fun _ => ?_
    unfold PS.pickAngles
    dsimp only
    rw [if_pos hi]
    constructor <;> intro h <;> linarith
  have hq1 : (c - -1) / (1 - -1) ≤ 1 := by linarith
  rw [e]
  have g1 : Ioo 0 ((c - -1) / (1 - -1)) ⊆ {x | (0 < x ∧ x < 1) ∧ x ≤ (c - -1) / (1 - -1)} := fun r hr => ⟨⟨hr.1, lt_of_lt_of_le hr.2 hq1⟩, hr.2.le⟩
  have g2 : {x | (0 < x ∧ x < 1) ∧ x ≤ (c - -1) / (1 - -1)} ⊆ Ioc 0 ((c - -1) / (1 - -1)) := fun r hr => ⟨hr.1.1, hr.2⟩
  refine le_antisymm ((measure_mono g2).trans ?_) (le_trans ?_ (measure_mono g1))
  · rw [Real.volume_Ioc, sub_zero]
  · rw [Real.volume_Ioo, sub_zero]

/-- the azimuth is uniform between 0 and 2π, whatever the cosine is -/
theorem pickAngles_phi (g : PS) (u : ℕ → ℝ) (i : ℕ) (hi : 1 ≤ i ∧ i < g.n) {a : ℝ} (h1 : 0 ≤ a) (h2 : a ≤ 2 * Real.pi) :
    volume {x : ℝ | (0 < x ∧ x < 1) ∧ (g.pickAngles u (fun _ => x)).phi i ≤ a} = ENNReal.ofReal (a / (2 * Real.pi)) := by
  have hpi : 0 < 2 * Real.pi := by linarith [Real.pi_pos]
  have e : {x : ℝ | (0 < x ∧ x < 1) ∧ (g.pickAngles u (fun _ => x)).phi i ≤ a} = {x | (0 < x ∧ x < 1) ∧ x ≤ a / (2 * Real.pi)} := by
    ext x
    refine and_congr_right fun _ => ?_
    unfold PS.pickAngles
    dsimp only
    rw [if_pos hi, le_div_iff₀ hpi, mul_comm x]
  have hq1 : a / (2 * Real.pi) ≤ 1 := by rwa [div_le_one hpi]
  rw [e]
  have g1 : Ioo 0 (a / (2 * Real.pi)) ⊆ {x | (0 < x ∧ x < 1) ∧ x ≤ a / (2 * Real.pi)} := fun r hr => ⟨⟨hr.1, lt_of_lt_of_le hr.2 hq1⟩, hr.2.le⟩
  have g2 : {x | (0 < x ∧ x < 1) ∧ x ≤ a / (2 * Real.pi)} ⊆ Ioc 0 (a / (2 * Real.pi)) := fun r hr => ⟨hr.1.1, hr.2⟩
  refine le_antisymm ((measure_mono g2).trans ?_) (le_trans ?_ (measure_mono g1))
  · rw [Real.volume_Ioc, sub_zero]
  · rw [Real.volume_Ioo, sub_zero]

end Rpwa.Gen
