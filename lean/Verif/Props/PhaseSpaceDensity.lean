import Verif.Props.PhaseSpaceWeight
import Mathlib.Tactic.Positivity

/-!
# C52: weights of phase-space events are the phase-space density
-/

namespace Rpwa.Gen

open Spec

/-- closed form of the phase-space density -/
theorem density_eq {n : ℕ} {m M q : ℕ → ℝ} (hv : ValidMasses n m M)
    (hq : ∀ i, i + 1 < n → Phys.breakupMomentum (M (i + 1)) (M i) (m (i + 1)) = some (q (i + 1))) :
    ∀ k, k + 1 < n → density m M (k + 1)
      = PS.momProd q (k + 1) / (2 * (2 * Real.pi) ^ (2 * k + 1) * M (k + 1)) := by
  have hpi := Real.pi_ne_zero
  have h2 : ∀ i, i + 1 < n → twoBody (M (i + 1)) (M i) (m (i + 1)) = q (i + 1) / (4 * Real.pi * M (i + 1)) :=
    fun i hi => twoBody_eq (hv.pos i hi) (valid_nonneg hv i (by omega)) (hv.nonneg _ hi) (hv.step i hi)
      (hq i hi)
  intro k
  induction k with
  | zero =>
    intro hk
    have := (hv.pos 0 hk).ne'
    show twoBody (M 1) (M 0) (m 1) = 1 * q 1 / _
    rw [h2 0 hk]
    field_simp
    ring
  | succ k ih =>
    intro hk
    have := (hv.pos k (by omega)).ne'
    have := (hv.pos (k + 1) hk).ne'
    show density m M (k + 1) * (2 * M (k + 1) / (2 * Real.pi)) * twoBody (M (k + 2)) (M (k + 1)) (m (k + 2))
      = PS.momProd q (k + 1) * q (k + 2) / _
    rw [ih (by omega), h2 (k + 1) hk]
    have e : (2 * Real.pi) ^ (2 * (k + 1) + 1) = (2 * Real.pi) ^ (2 * k + 1) * (2 * Real.pi) ^ 2 := by
      rw [← pow_add]; congr 1
    rw [e]
    field_simp
    ring

/-- **C52, S. U. Chung.** For every number of particles and all possible masses: the weight is the
phase-space density times the volume `D^(n-2) / (n-2)!` in which the masses of the subsystems are picked
uniformly (`D`: energy above threshold). -/
theorem weight_chung (g : PS) (hn : 2 ≤ g.n) (hs : g.mSum = PS.sums g.m)
    (hv : ValidMasses g.n g.m g.M) (hw : g.weightType = .chung)
    (hnorm : g.norm = PS.normOf .chung g.n) :
    ∃ g', g.calcWeight = some g' ∧ g'.weight =
      (g.M (g.n - 1) - g.mSum (g.n - 1)) ^ (g.n - 2) / (g.n - 2).factorial * density g.m g.M (g.n - 1) := by
  obtain ⟨q, e, _, hb⟩ := calcWeight_eq g hn hs hv
  refine ⟨_, e, ?_⟩
  obtain ⟨k, hk⟩ : ∃ k, g.n = k + 2 := ⟨g.n - 2, by omega⟩
  have hd := density_eq hv hb k (by omega)
  dsimp only
  unfold weightOf
  rw [hw]
  dsimp only
  rw [hnorm]
  unfold PS.normOf
  dsimp only
  rw [hk]
  rw [show k + 2 - 1 = k + 1 by omega, show k + 2 - 2 = k by omega, hd]
  have e1 : (2 * Real.pi) ^ (2 * ((k + 2 : ℕ) : ℤ) - 3) = (2 * Real.pi) ^ (2 * k + 1) := by
    rw [show 2 * ((k + 2 : ℕ) : ℤ) - 3 = ((2 * k + 1 : ℕ) : ℤ) by push_cast; ring, zpow_natCast]
  have e2 : (g.M (k + 1) - g.mSum (k + 1)) ^ (((k + 2 : ℕ) : ℤ) - 2)
      = (g.M (k + 1) - g.mSum (k + 1)) ^ k := by
    rw [show ((k + 2 : ℕ) : ℤ) - 2 = (k : ℤ) by push_cast; ring, zpow_natCast]
  rw [e1, e2]
  have hpi := Real.pi_ne_zero
  have hM := (hv.pos k (by omega)).ne'
  have hf : ((k.factorial : ℕ) : ℝ) ≠ 0 := by exact_mod_cast k.factorial_ne_zero
  field_simp

/-- phase-space density is not negative -/
theorem density_nonneg {n : ℕ} {m M : ℕ → ℝ} (hv : ValidMasses n m M) (k : ℕ) (hk : k < n) :
    0 ≤ density m M k := by
  have hpi := Real.pi_pos
  have h2 : ∀ a b c : ℝ, 0 ≤ twoBody a b c := fun a b c =>
    div_nonneg (Real.sqrt_nonneg _) (by positivity)
  induction k with
  | zero => exact zero_le_one
  | succ k ih =>
    rcases k with _ | k
    · exact h2 _ _ _
    · show 0 ≤ density m M (k + 1) * (2 * M (k + 1) / (2 * Real.pi)) * twoBody (M (k + 2)) (M (k + 1)) (m (k + 2))
      have := hv.pos k (by omega)
      exact mul_nonneg (mul_nonneg (ih (by omega)) (by positivity)) (h2 _ _ _)

/-- **C52.** the weight is never negative -/
theorem weight_chung_nonneg (g : PS) (hn : 2 ≤ g.n) (hs : g.mSum = PS.sums g.m)
    (hv : ValidMasses g.n g.m g.M) (hw : g.weightType = .chung)
    (hnorm : g.norm = PS.normOf .chung g.n) : ∃ g', g.calcWeight = some g' ∧ 0 ≤ g'.weight := by
  obtain ⟨g', e, h⟩ := weight_chung g hn hs hv hw hnorm
  refine ⟨g', e, ?_⟩
  rw [h]
  have h1 := (top_ge hs hv (g.n - 1) (by omega)).1
  have h2 := density_nonneg hv (g.n - 1) (by omega)
  have h3 : 0 ≤ g.M (g.n - 1) - g.mSum (g.n - 1) := by linarith
  positivity

/-- **C52, GENBOD.** The weight is between 0 and 1. -/
theorem weight_genbod (g : PS) (hn : 2 ≤ g.n) (hs : g.mSum = PS.sums g.m)
    (hv : ValidMasses g.n g.m g.M) (hw : g.weightType = .genbod) :
    ∃ g', g.calcWeight = some g' ∧ 0 ≤ g'.weight ∧ g'.weight ≤ 1 := by
  obtain ⟨q, e, _, hb⟩ := calcWeight_eq g hn hs hv
  refine ⟨_, e, ?_⟩
  obtain ⟨p, ep, h0, hp⟩ := genbodLoop_spec g hs hv q hb (g.n - 1) (by omega)
  dsimp only
  unfold weightOf
  rw [hw, ep]
  show 0 ≤ PS.momProd q (g.n - 1) / p ∧ PS.momProd q (g.n - 1) / p ≤ 1
  exact ⟨div_nonneg h0 (h0.trans hp), div_le_one_of_le₀ hp (h0.trans hp)⟩

/-! ## NUPHAZ -/

section nuphaz

variable (g : PS)

/-- `m_i^2 / M_i^2` -/
noncomputable def nU (i : ℕ) : ℝ := g.m i / g.M i * (g.m i / g.M i)
/-- smallest possible `x` -/
noncomputable def nXmin (i : ℕ) : ℝ := g.mSum (i - 1) * g.mSum (i - 1) / (g.M i * g.M i)
/-- range of `x` -/
noncomputable def nDelta (i : ℕ) : ℝ := (1 - g.m i / g.M i) * (1 - g.m i / g.M i) - nXmin g i
/-- probability of the first way of picking -/
noncomputable def nProb (i : ℕ) : ℝ :=
  1 / ((i : ℝ) - ((i : ℝ) - 1) * nDelta g i / (1 + nU g i - nXmin g i))
/-- `x`, the square of the ratio of two masses -/
noncomputable def nX (i : ℕ) : ℝ := g.M (i - 1) / g.M i * (g.M (i - 1) / g.M i)

/-- the picked `x` is one of two functions of uniform random numbers -/
theorem nuphazX_eq (d : PS.Draw) (i : ℕ) : g.nuphazX d i = nXmin g i + nDelta g i *
    (if d.choice < nProb g i then d.a ^ (1 / (i : ℝ)) * d.b ^ (1 / ((i : ℝ) - 1))
      else d.a ^ (1 / (i : ℝ))) := by
  show (if d.choice < nProb g i then nXmin g i + nDelta g i * d.a ^ (1 / (i : ℝ))
    * d.b ^ (1 / ((i : ℝ) - 1)) else nXmin g i + nDelta g i * d.a ^ (1 / (i : ℝ))) = _
  split
  · ring
  · rfl

/-- density of the mass `M (i-1)` in one picking step, given `M i`: density of `y`, divided by the range
of `x`, times `dx / dM` -/
noncomputable def stepDensity (i : ℕ) : ℝ :=
  mixture i (nProb g i) ((nX g i - nXmin g i) / nDelta g i) / nDelta g i * (2 * g.M (i - 1) / g.M i ^ 2)

/-- density of all picked masses -/
noncomputable def samplingDensity : ℕ → ℝ
  | 0 => 1
  | 1 => 1
  | i + 2 => samplingDensity (i + 1) * stepDensity g (i + 2)

variable {g}

/-- reduced two-body phase space -/
theorem F_eq {M m1 m2 q x y : ℝ} (hM : 0 < M) (h1 : 0 ≤ m1) (h2 : 0 ≤ m2) (h : m1 + m2 ≤ M)
    (e : Phys.breakupMomentum M m1 m2 = some q) (hx : x = m1 ^ 2 / M ^ 2) (hy : y = m2 ^ 2 / M ^ 2) :
    PS.F x y = 2 * q / M := by
  obtain ⟨h0, hq⟩ := breakup_closed hM h1 h2 h e
  have hval : 1 + (x - y) * (x - y) - 2 * (x + y) = (2 * q / M) ^ 2 := by
    rw [hx, hy]
    field_simp
    linear_combination -hq
  unfold PS.F
  dsimp only
  rw [hval, if_neg (not_lt.mpr (sq_nonneg _)), Real.sqrt_sq (by positivity)]

theorem F_comm (x y : ℝ) : PS.F x y = PS.F y x := by
  unfold PS.F
  dsimp only
  rw [show 1 + (x - y) * (x - y) - 2 * (x + y) = 1 + (y - x) * (y - x) - 2 * (y + x) by ring]

/-- the picking probability is a probability -/
theorem nProb_range {i : ℕ} (hM : 0 < g.M (i + 2)) (hm : 0 ≤ g.m (i + 2))
    (hS : 0 ≤ g.mSum (i + 1)) (h : g.mSum (i + 1) + g.m (i + 2) < g.M (i + 2)) :
    0 < nDelta g (i + 2) ∧ nDelta g (i + 2) ≤ 1 + nU g (i + 2) - nXmin g (i + 2) ∧
      0 < nProb g (i + 2) ∧ nProb g (i + 2) ≤ 1 := by
  have hD : nDelta g (i + 2) = ((g.M (i + 2) - g.m (i + 2)) ^ 2 - g.mSum (i + 1) ^ 2) / g.M (i + 2) ^ 2 := by
    unfold nDelta nXmin
    rw [show i + 2 - 1 = i + 1 by omega]
    field_simp
  have h1 : 0 < nDelta g (i + 2) := by
    rw [hD]
    refine div_pos ?_ (by positivity)
    nlinarith
  have h2 : nDelta g (i + 2) ≤ 1 + nU g (i + 2) - nXmin g (i + 2) := by
    unfold nDelta nU
    have : 0 ≤ g.m (i + 2) / g.M (i + 2) := by positivity
    nlinarith
  have hT : 0 < 1 + nU g (i + 2) - nXmin g (i + 2) := by linarith
  have h3 : nDelta g (i + 2) / (1 + nU g (i + 2) - nXmin g (i + 2)) ≤ 1 := (div_le_one hT).mpr h2
  have h4 : (1 : ℝ) ≤ ((i + 2 : ℕ) : ℝ) - (((i + 2 : ℕ) : ℝ) - 1) * nDelta g (i + 2)
      / (1 + nU g (i + 2) - nXmin g (i + 2)) := by
    rw [mul_div_assoc]
    push_cast
    have : (0 : ℝ) ≤ i := Nat.cast_nonneg i
    nlinarith
  refine ⟨h1, h2, ?_, ?_⟩
  · unfold nProb
    exact one_div_pos.mpr (by linarith)
  · unfold nProb
    exact (div_le_one (by linarith)).mpr h4

/-- weight factor times density of one picking step -/
theorem factor_step {i : ℕ} {q : ℝ} (hM : 0 < g.M (i + 2)) (hm : 0 ≤ g.m (i + 2))
    (hS : 0 ≤ g.mSum (i + 1)) (h : g.mSum (i + 1) + g.m (i + 2) < g.M (i + 2))
    (hMS : g.mSum (i + 1) < g.M (i + 1)) (hst : g.M (i + 1) + g.m (i + 2) < g.M (i + 2))
    (hq : Phys.breakupMomentum (g.M (i + 2)) (g.M (i + 1)) (g.m (i + 2)) = some q) :
    PS.nuphazFactor g (i + 2) * stepDensity g (i + 2) = ((i : ℝ) + 2) * ((i : ℝ) + 1) * 4 * q
      * g.M (i + 1) ^ (2 * i + 1) / g.M (i + 2) ^ (2 * i + 3) := by
  have hM1 : 0 < g.M (i + 1) := by linarith
  obtain ⟨d0, d1, p0, _⟩ := nProb_range hM hm hS h
  have hF : PS.F (nX g (i + 2)) (nU g (i + 2)) = 2 * q / g.M (i + 2) := by
    refine F_eq hM hM1.le hm hst.le hq ?_ ?_
    · unfold nX
      rw [show i + 2 - 1 = i + 1 by omega]
      field_simp
    · unfold nU
      field_simp
  have hXm : nXmin g (i + 2) < nX g (i + 2) := by
    unfold nXmin nX
    rw [show i + 2 - 1 = i + 1 by omega, div_mul_div_comm]
    refine div_lt_div_of_pos_right ?_ (by positivity)
    nlinarith
  have hZ : 0 < 1 + nU g (i + 2) - nX g (i + 2) := by
    have e : 1 + nU g (i + 2) - nX g (i + 2)
        = (g.M (i + 2) ^ 2 + g.m (i + 2) ^ 2 - g.M (i + 1) ^ 2) / g.M (i + 2) ^ 2 := by
      unfold nU nX
      rw [show i + 2 - 1 = i + 1 by omega]
      field_simp
    rw [e]
    refine div_pos ?_ (by positivity)
    nlinarith [sq_nonneg (g.m (i + 2))]
  have hfac : PS.nuphazFactor g (i + 2) = (((i + 2 : ℕ) : ℝ) * (1 + nU g (i + 2) - nXmin g (i + 2))
      - (((i + 2 : ℕ) : ℝ) - 1) * nDelta g (i + 2)) * nDelta g (i + 2) ^ (i + 1)
      * (nX g (i + 2) / (nX g (i + 2) - nXmin g (i + 2))) ^ i * PS.F (nX g (i + 2)) (nU g (i + 2))
      / (1 + nU g (i + 2) - nX g (i + 2)) := rfl
  have hXpow : nX g (i + 2) ^ i = g.M (i + 1) ^ (2 * i) / g.M (i + 2) ^ (2 * i) := by
    unfold nX
    rw [show i + 2 - 1 = i + 1 by omega, ← sq, ← pow_mul, div_pow]
  rw [hfac, hF, div_pow, hXpow]
  unfold stepDensity mixture nProb
  rw [show i + 2 - 2 = i by omega, show i + 2 - 1 = i + 1 by omega]
  have hx' : 0 < nX g (i + 2) - nXmin g (i + 2) := by linarith
  have hT : 0 < 1 + nU g (i + 2) - nXmin g (i + 2) := by linarith
  have hrel : 1 + nU g (i + 2) - nX g (i + 2)
      = (1 + nU g (i + 2) - nXmin g (i + 2)) - (nX g (i + 2) - nXmin g (i + 2)) := by ring
  unfold nProb at p0
  rw [hrel] at hZ ⊢
  generalize nX g (i + 2) - nXmin g (i + 2) = X at *
  generalize 1 + nU g (i + 2) - nXmin g (i + 2) = T at *
  generalize nDelta g (i + 2) = D at *
  have hden : 0 < ((i + 2 : ℕ) : ℝ) - (((i + 2 : ℕ) : ℝ) - 1) * D / T := one_div_pos.mp p0
  push_cast at hden ⊢
  have hden' : 0 < ((i : ℝ) + 2) * T - ((i : ℝ) + 2 - 1) * D := by
    have := mul_pos hden hT
    rw [sub_mul, div_mul_cancel₀ _ hT.ne'] at this
    exact this
  have hp : 1 / ((i : ℝ) + 2 - ((i : ℝ) + 2 - 1) * D / T) = T / (((i : ℝ) + 2) * T - ((i : ℝ) + 2 - 1) * D) := by
    rw [div_eq_div_iff hden.ne' hden'.ne']
    field_simp
  rw [hp]
  have hd' := hden'.ne'
  have hz' := hZ.ne'
  rw [div_pow, div_pow, pow_succ X i]
  generalize hN : ((i : ℝ) + 2) * T - ((i : ℝ) + 2 - 1) * D = N at *
  have hXi : X ^ i ≠ 0 := by positivity
  have hDi : D ^ i ≠ 0 := by positivity
  field_simp
  rw [← hN]
  ring

theorem nuphazLoop_density (hs : g.mSum = PS.sums g.m) (hv : ValidMasses g.n g.m g.M)
    (hin : Inside g.n g.m g.M) {q : ℕ → ℝ}
    (hq : ∀ i, i + 1 < g.n → Phys.breakupMomentum (g.M (i + 1)) (g.M i) (g.m (i + 1)) = some (q (i + 1))) :
    ∀ (k : ℕ) (w : ℝ), k + 1 < g.n →
      PS.nuphazLoop g (k + 1) w * samplingDensity g (k + 1) * (2 * q 1 / g.M 1)
        = w * ((k + 1).factorial * k.factorial * 2 * 4 ^ k * PS.momProd q (k + 1)
          / g.M (k + 1) ^ (2 * k + 1)) := by
  intro k
  induction k with
  | zero =>
    intro w hk
    show w * 1 * (2 * q 1 / g.M 1) = w * (_ * _ * 2 * 4 ^ 0 * (1 * q 1) / g.M 1 ^ (2 * 0 + 1))
    simp
  | succ k ih =>
    intro w hk
    show PS.nuphazLoop g (k + 1) (w * PS.nuphazFactor g (k + 2))
      * (samplingDensity g (k + 1) * stepDensity g (k + 2)) * (2 * q 1 / g.M 1) = _
    have h1 := ih (w * PS.nuphazFactor g (k + 2)) (by omega)
    have hM := hv.pos (k + 1) hk
    have hM1 := hv.pos k (by omega)
    have ha := hin.above (k + 1) hk
    have h2 := factor_step (g := g) (i := k) hM (hv.nonneg _ hk)
      (by rw [hs]; exact sums_nonneg hv.nonneg _ (by omega)) (by rw [hs]; exact ha)
      (by rw [hs]; exact hin.above k (by omega)) (hin.step k hk) (hq (k + 1) hk)
    calc PS.nuphazLoop g (k + 1) (w * PS.nuphazFactor g (k + 2))
          * (samplingDensity g (k + 1) * stepDensity g (k + 2)) * (2 * q 1 / g.M 1)
        = (PS.nuphazLoop g (k + 1) (w * PS.nuphazFactor g (k + 2)) * samplingDensity g (k + 1)
          * (2 * q 1 / g.M 1)) * stepDensity g (k + 2) := by ring
      _ = w * (PS.nuphazFactor g (k + 2) * stepDensity g (k + 2)) * ((k + 1).factorial * k.factorial * 2 * 4 ^ k
          * PS.momProd q (k + 1) / g.M (k + 1) ^ (2 * k + 1)) := by rw [h1]; ring
      _ = _ := by
        rw [h2]
        show _ = w * ((k + 1 + 1).factorial * (k + 1).factorial * 2 * 4 ^ (k + 1)
          * (PS.momProd q (k + 1) * q (k + 2)) / g.M (k + 2) ^ (2 * (k + 1) + 1))
        rw [Nat.factorial_succ (k + 1), show ((k + 1).factorial : ℝ) * (k.factorial : ℝ)
          = (k + 1).factorial * k.factorial from rfl]
        have hf : ((k + 1).factorial : ℝ) = ((k : ℝ) + 1) * k.factorial := by
          rw [Nat.factorial_succ]; push_cast; ring
        push_cast
        rw [hf]
        have e : 2 * (k + 1) + 1 = 2 * k + 3 := by ring
        rw [e]
        have h3 := hM.ne'
        have h4 := hM1.ne'
        field_simp
        ring

/-- **C52, NUPHAZ.** For every number of particles and all masses inside of the possible region: the weight
times the density with which the masses are picked is the phase-space density, up to the constant factor
`(2 pi)^4`. -/
theorem weight_nuphaz (hn : 2 ≤ g.n) (hs : g.mSum = PS.sums g.m)
    (hv : ValidMasses g.n g.m g.M) (hin : Inside g.n g.m g.M) (hw : g.weightType = .nuphaz)
    (hnorm : g.norm = PS.normOf .nuphaz g.n) :
    ∃ g', g.calcWeight = some g' ∧
      g'.weight * samplingDensity g (g.n - 1) = density g.m g.M (g.n - 1) / (2 * Real.pi) ^ 4 := by
  obtain ⟨q, e, _, hb⟩ := calcWeight_eq g hn hs hv
  refine ⟨_, e, ?_⟩
  obtain ⟨k, hk⟩ : ∃ k, g.n = k + 2 := ⟨g.n - 2, by omega⟩
  have hd := density_eq hv hb k (by omega)
  have hl := nuphazLoop_density hs hv hin hb k 1 (by omega)
  have hF : PS.F (g.m 1 * g.m 1 / (g.M 1 * g.M 1)) (g.m 0 * g.m 0 / (g.M 1 * g.M 1)) = 2 * q 1 / g.M 1 := by
    rw [F_comm]
    have h1 := hv.step 0 (by omega)
    have h2 := hb 0 (by omega)
    rw [hv.first] at h1 h2
    exact F_eq (hv.pos 0 (by omega)) (hv.nonneg 0 (by omega)) (hv.nonneg 1 (by omega)) h1 h2
      (by rw [sq, sq]) (by rw [sq, sq])
  dsimp only
  unfold weightOf
  rw [hw]
  dsimp only
  rw [hnorm, hF]
  unfold PS.normOf
  dsimp only
  rw [hk]
  rw [show k + 2 - 1 = k + 1 by omega, show k + 2 - 2 = k by omega, hd]
  have e1 : (4 * Real.pi) ^ (2 * ((k + 2 : ℕ) : ℤ) + 1) = (4 * Real.pi) ^ (2 * k + 5) := by
    rw [show 2 * ((k + 2 : ℕ) : ℤ) + 1 = ((2 * k + 5 : ℕ) : ℤ) by push_cast; ring, zpow_natCast]
  have e2 : g.M (k + 1) ^ (2 * ((k + 2 : ℕ) : ℤ) - 4) = g.M (k + 1) ^ (2 * k) := by
    rw [show 2 * ((k + 2 : ℕ) : ℤ) - 4 = ((2 * k : ℕ) : ℤ) by push_cast; ring, zpow_natCast]
  rw [e1, e2]
  rw [one_mul] at hl
  have hpi := Real.pi_ne_zero
  have hM := (hv.pos k (by omega)).ne'
  have hf : ((k.factorial : ℕ) : ℝ) ≠ 0 := by exact_mod_cast k.factorial_ne_zero
  have hf1 : ((k + 1).factorial : ℝ) = ((k : ℝ) + 1) * k.factorial := by
    rw [Nat.factorial_succ]; push_cast; ring
  have hk1 : (k : ℝ) + 1 ≠ 0 := by positivity
  have hcast : (((k + 2 : ℕ) : ℝ) - 1) = (k : ℝ) + 1 := by push_cast; ring
  rw [hcast]
  calc _ = (PS.nuphazLoop g (k + 1) 1 * samplingDensity g (k + 1) * (2 * q 1 / g.M 1))
        * (8 / ((4 * Real.pi) ^ (2 * k + 5) * k.factorial * k.factorial * ((k : ℝ) + 1))
          * g.M (k + 1) ^ (2 * k)) := by ring
    _ = _ := by
      rw [hl, hf1]
      have e4 : (4 * Real.pi) ^ (2 * k + 5) = 4 ^ k * (2 * Real.pi) ^ (2 * k + 1) * 64 * (2 * Real.pi) ^ 4 / 2 := by
        rw [mul_pow, mul_pow, mul_pow]
        have : (4 : ℝ) ^ (2 * k + 5) = 4 ^ k * 2 ^ (2 * k + 1) * 512 := by
          rw [pow_add, pow_mul, pow_add, pow_mul]
          norm_num
          rw [show (16 : ℝ) = 4 * 4 by norm_num, mul_pow]
          ring
        rw [this]
        ring
      rw [e4]
      field_simp
      ring

end nuphaz

/-! ## histories -/

/-- the normalization belongs to the weight type if the type is chosen before the decay -/
theorem norm_current (g : PS) (w : WeightType) (masses : List ℝ) (h : 2 ≤ masses.length) :
    ((g.setWeightType w).setDecay masses).1.norm = PS.normOf w masses.length ∧
    ((g.setWeightType w).setDecay masses).1.weightType = w := by
  unfold PS.setDecay
  rw [if_neg (by omega)]
  exact ⟨rfl, rfl⟩

/-- **C52, false.** If it is chosen afterwards, the normalization still is the one of the previous type. -/
theorem norm_stale (g : PS) (w : WeightType) (masses : List ℝ) (h : 2 ≤ masses.length) :
    ((g.setDecay masses).1.setWeightType w).norm = PS.normOf g.weightType masses.length ∧
    ((g.setDecay masses).1.setWeightType w).weightType = w := by
  unfold PS.setDecay
  rw [if_neg (by omega)]
  exact ⟨rfl, rfl⟩

/-- the two normalizations differ: the weights of a two-body decay are wrong by a large factor -/
theorem norm_stale_differs : PS.normOf .chung 2 ≠ PS.normOf .genbod 2 := by
  unfold PS.normOf
  dsimp only
  intro h
  have e : (2 * Real.pi) ^ (2 * ((2 : ℕ) : ℤ) - 3) = 2 * Real.pi := by
    rw [show 2 * ((2 : ℕ) : ℤ) - 3 = 1 by norm_num, zpow_one]
  rw [e, show (2 - 2 : ℕ).factorial = 1 from rfl, Nat.cast_one, mul_one] at h
  have hpi := Real.pi_pos
  have h3 := Real.two_le_pi
  rw [div_eq_one_iff_eq (by positivity)] at h
  linarith

/-- one event: masses are picked and the weight is calculated -/
noncomputable def weigh (W : ℝ) (g : PS) (rnd : PS.Randoms) : Option PS :=
  (g.pickMasses W rnd.draws rnd.r).calcWeight

/-- **C52, maximum.** After any number of events the largest observed weight is the maximum of its old
value and the weights of the events. -/
theorem maxObserved_step (g : PS) (hg : Configured g) {W : ℝ} (hW : g.mSum (g.n - 1) ≤ W)
    (hp : 0 < g.m 0 + g.m 1 ∨ g.mSum (g.n - 1) < W) {rnd : PS.Randoms} (hr : Rnd g.n rnd) :
    ∃ g', weigh W g rnd = some g' ∧ Configured g' ∧ g'.n = g.n ∧ g'.m = g.m ∧ g'.mSum = g.mSum ∧
      g'.maxObserved = max g.maxObserved g'.weight ∧ g'.weightType = g.weightType ∧ g'.norm = g.norm := by
  obtain ⟨M, e, hv, hW'⟩ := pickMasses_valid g hg hW hp hr
  obtain ⟨q, e2, hq, _⟩ := calcWeight_eq { g with M := M } hg.two hg.sums hv
  have e3 : weigh W g rnd = some { g with
      M := M, q := q, weight := weightOf { g with M := M } q
      maxObserved := max g.maxObserved (weightOf { g with M := M } q) } := by
    unfold weigh
    rw [e, e2]
  exact ⟨_, e3, ⟨hg.two, hg.nonneg, hg.sums, hv.first⟩, rfl, rfl, rfl, rfl, rfl, rfl⟩

/-- **C52, estimate.** `estimateMaxWeight` never fails above threshold; its result is at least as large as the
weight of every event of the sample, and it is zero or the weight of one of them. -/
theorem estimateMaxWeight_spec (g : PS) (hg : Configured g) (h0 : 0 ≤ g.maxObserved) {W : ℝ} (hW : g.mSum (g.n - 1) ≤ W)
    (hp : 0 < g.m 0 + g.m 1 ∨ g.mSum (g.n - 1) < W) (rnds : List PS.Randoms)
    (hr : ∀ rnd ∈ rnds, Rnd g.n rnd) :
    ∃ (s : ℕ → PS) (w : ℝ), g.estimateMaxWeight W rnds = some (s rnds.length, w) ∧ s 0 = g ∧
      (∀ (i : ℕ) rnd, rnds[i]? = some rnd → weigh W (s i) rnd = some (s (i + 1))) ∧
      (∀ i < rnds.length, (s (i + 1)).weight ≤ w) ∧
      (w = 0 ∨ ∃ i < rnds.length, w = (s (i + 1)).weight) ∧ 0 ≤ w ∧
      Configured (s rnds.length) ∧ (s rnds.length).maxObserved = max g.maxObserved w := by
  suffices h : ∃ (s : ℕ → PS) (w : ℝ), g.estimateMaxWeight W rnds = some (s rnds.length, w) ∧ s 0 = g ∧
      (∀ (i : ℕ) rnd, rnds[i]? = some rnd → weigh W (s i) rnd = some (s (i + 1))) ∧
      (∀ i < rnds.length, (s (i + 1)).weight ≤ w) ∧
      (w = 0 ∨ ∃ i < rnds.length, w = (s (i + 1)).weight) ∧ 0 ≤ w ∧
      (Configured (s rnds.length) ∧ (s rnds.length).maxObserved = max g.maxObserved w) ∧
      (s rnds.length).n = g.n ∧ (s rnds.length).m = g.m ∧ (s rnds.length).mSum = g.mSum by
    obtain ⟨s, w, h1, h2, h3, h4, h5, h6, h7, _⟩ := h
    exact ⟨s, w, h1, h2, h3, h4, h5, h6, h7⟩
  induction rnds using List.reverseRecOn with
  | nil =>
    refine ⟨fun _ => g, 0, rfl, rfl, fun i rnd h => ?_, fun i hi => absurd hi (Nat.not_lt_zero i), Or.inl rfl,
      le_refl 0, ⟨hg, (max_eq_left h0).symm⟩, rfl, rfl, rfl⟩
    simp at h
  | append_singleton rnds rnd ih =>
    obtain ⟨s, w, h1, h2, h3, h4, h5, h6, ⟨h7, h8⟩, hn, hm, hs⟩ := ih (fun r h => hr r (by simp [h]))
    obtain ⟨g', e, c, n', m', s', mx, _⟩ := maxObserved_step (s rnds.length) h7 (W := W)
      (by rw [hs, hn]; exact hW) (by rw [hs, hn, hm]; exact hp) (rnd := rnd)
      (by rw [hn]; exact hr rnd (by simp))
    have hlen : (rnds ++ [rnd]).length = rnds.length + 1 := by simp
    obtain ⟨S, hS1, hS2⟩ : ∃ S : ℕ → PS, (∀ i, i ≤ rnds.length → S i = s i) ∧
        S (rnds.length + 1) = g' := by
      refine ⟨fun i => if i ≤ rnds.length then s i else g', fun i hi => if_pos hi, if_neg (by omega)⟩
    refine ⟨S, max g'.weight w, ?_, ?_, ?_, ?_, ?_, ?_, ⟨?_, ?_⟩,
      ?_, ?_, ?_⟩
    · unfold PS.estimateMaxWeight at h1 ⊢
      rw [List.foldlM_append, h1, hlen, hS2]
      unfold weigh at e
      show ((((s rnds.length).pickMasses W rnd.draws rnd.r).calcWeight).bind fun g =>
        some (g, max g.weight w)).bind some = _
      rw [e]
      rfl
    · rw [hS1 0 (Nat.zero_le _), h2]
    · intro i r hi
      by_cases hlt : i < rnds.length
      · rw [hS1 i hlt.le, hS1 (i + 1) (by omega)]
        rw [List.getElem?_append_left hlt] at hi
        exact h3 i r hi
      · have : i = rnds.length := by
          have := (List.getElem?_eq_some_iff.mp hi).1
          omega
        subst this
        rw [hS1 _ (le_refl _), hS2]
        simp at hi
        rw [← hi]
        exact e
    · intro i hi
      by_cases hlt : i < rnds.length
      · rw [hS1 _ (by omega)]
        exact (h4 i hlt).trans (le_max_right _ _)
      · rw [show i = rnds.length by omega, hS2]
        exact le_max_left _ _
    · rcases le_total w g'.weight with hle | hle
      · right
        refine ⟨rnds.length, by omega, ?_⟩
        rw [hS2, max_eq_left hle]
      · rw [max_eq_right hle]
        rcases h5 with h | ⟨i, hi, h⟩
        · exact Or.inl h
        · exact Or.inr ⟨i, by omega, by rw [hS1 _ (by omega)]; exact h⟩
    · exact h6.trans (le_max_right _ _)
    · rw [hlen, hS2]; exact c
    · rw [hlen, hS2, mx, h8, max_assoc, max_comm w]
    · rw [hlen, hS2, n', hn]
    · rw [hlen, hS2, m', hm]
    · rw [hlen, hS2, s', hs]

/-- **C52, acceptance.** With a positive maximum an event is accepted for the random numbers below the ratio of
weight and maximum, that is with this probability if the weight is not above the maximum. -/
theorem eventAccepted_spec (g : PS) (hw : g.weightType ≠ .flat) {maxWeight : ℝ} (h : 0 < maxWeight) (r : ℝ) :
    g.eventAccepted maxWeight r = true ↔ r < g.weight / maxWeight := by
  unfold PS.eventAccepted
  rw [if_neg hw, if_neg (not_le.mpr h), if_neg (not_le.mpr h)]
  by_cases hc : g.weight / maxWeight > r
  · rw [if_pos hc]; exact ⟨fun _ => hc, fun _ => rfl⟩
  · rw [if_neg hc]; exact ⟨fun h => absurd h (by decide), fun h => absurd h hc⟩

/-- the flat weight accepts everything, a maximum that is not set rejects everything -/
theorem eventAccepted_special (g : PS) (r : ℝ) :
    (g.weightType = .flat → g.eventAccepted 0 r = true) ∧
    (g.weightType ≠ .flat → g.maxWeight ≤ 0 → g.eventAccepted 0 r = false) := by
  unfold PS.eventAccepted
  refine ⟨fun h => if_pos h, fun h hm => ?_⟩
  rw [if_neg h, if_pos (le_refl 0), if_pos hm]

end Rpwa.Gen
