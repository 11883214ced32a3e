import Verif.Props.MassDependence
import Mathlib.Topology.Order.IntermediateValue
import Mathlib.Topology.Algebra.Polynomial

/-!
# C56: amplitudes of S waves
-/

namespace Rpwa.MassDep

open Spec Rpwa.Phys Rpwa.Phys.Spec

/-- phase space of a channel of two equal masses -/
theorem rho_equal' {M m : ℝ} (hM : 0 < M) (h : 0 ≤ m) :
    ∃ k, breakupComplexF M m m = some k ∧ (2 * k / (M : ℂ)).re = openSpace M m m ∧
      0 ≤ (2 * k / (M : ℂ)).im := by
  obtain ⟨k, e, hr, hi, hp, ho, hc⟩ := rho_equal hM h
  refine ⟨k, e, ?_, hi⟩
  unfold openSpace
  split
  · rename_i h; rw [ho (by linarith), Complex.ofReal_re]
  · rename_i h; exact hc (by linarith [not_le.mp h])

theorem openSpace_nonneg (M m1 m2 : ℝ) : 0 ≤ openSpace M m1 m2 := by
  unfold openSpace
  split
  · exact phaseSpace_nonneg _ _ _
  · exact le_refl _

theorem openSpace_pos {M m1 m2 : ℝ} (hM : 0 < M) (h1 : 0 ≤ m1) (h2 : 0 ≤ m2) (h : m1 + m2 < M) :
    0 < openSpace M m1 m2 := by
  unfold openSpace
  rw [if_pos h.le]
  exact phaseSpace_pos hM h1 h2 h

/-- **C56**: Flatté amplitude for f0(980): a number for every mass, unitary with the phase space of the
open channels `pi pi` and `K K` -/
theorem flatte_spec (v : Vtx) {mPi mK : ℝ} (hPi : 0 ≤ mPi) (hK : 0 ≤ mK) (h : 2 * mPi < 0.965) (hM : 0 < v.M) :
    ∃ T, flatte mPi mK v = some T ∧
      Unitary (0.165 * (openSpace v.M mPi mPi + 4.21 * openSpace v.M mK mK)) T := by
  obtain ⟨k, e, hr, hi⟩ := rho_equal' hM hPi
  obtain ⟨k', e', hr', hi'⟩ := rho_equal' hM hK
  obtain ⟨d, hd⟩ : ∃ d : ℂ, d = (((0.965 * 0.965 - v.M * v.M : ℝ) : ℂ))
    - Complex.I * ((0.165 : ℝ) : ℂ) * (2 * k / (v.M : ℂ) + ((4.21 : ℝ) : ℂ) * (2 * k' / (v.M : ℂ))) := ⟨_, rfl⟩
  have him : -d.im = 0.165 * (openSpace v.M mPi mPi + 4.21 * openSpace v.M mK mK) := by
    rw [hd, ← hr, ← hr']
    generalize 2 * k / (v.M : ℂ) = r
    generalize 2 * k' / (v.M : ℂ) = r'
    simp only [Complex.sub_im, Complex.ofReal_im, Complex.mul_im, Complex.mul_re, Complex.I_re, Complex.I_im,
      Complex.ofReal_re, Complex.add_re, Complex.add_im]
    ring
  have hre : d.re = 0.965 * 0.965 - v.M * v.M + 0.165 * ((2 * k / (v.M : ℂ)).im + 4.21 * (2 * k' / (v.M : ℂ)).im) := by
    rw [hd]
    generalize 2 * k / (v.M : ℂ) = r
    generalize 2 * k' / (v.M : ℂ) = r'
    simp only [Complex.sub_re, Complex.ofReal_im, Complex.mul_im, Complex.mul_re, Complex.I_re, Complex.I_im,
      Complex.ofReal_re, Complex.add_re, Complex.add_im]
    ring
  have hne : d ≠ 0 := by
    intro h0
    rw [h0, Complex.zero_im] at him
    rw [h0, Complex.zero_re] at hre
    by_cases ht : mPi + mPi < v.M
    · have := openSpace_pos hM hPi hPi ht
      have := openSpace_nonneg v.M mK mK
      linarith
    · have : v.M * v.M < 0.965 * 0.965 := by nlinarith [not_lt.mp ht]
      linarith
  refine ⟨1 / d, ?_, him ▸ inv_optical hne⟩
  unfold flatte
  rw [e, e']
  show cdiv 1 _ = _
  rw [← cdiv_some hne, hd]

/-! ## Au, Morgan, Pennington -/

/-- **C56**: no mass of an event is used at which a pole term would be divided by zero -/
theorem shift_ne {M : ℝ} (hM : 0 ≤ M) : M ≤ AMP.shift M ∧
    AMP.shift M * AMP.shift M - AMP.sP 0 ≠ 0 ∧ AMP.shift M * AMP.shift M - AMP.sP 1 ≠ 0 := by
  have s0 : AMP.sP 0 = -0.0074 := rfl
  have s1 : AMP.sP 1 = 0.9828 := rfl
  unfold AMP.shift
  rw [s0, s1]
  split
  · rename_i h
    obtain ⟨h1, h2⟩ := abs_lt.mp h
    refine ⟨by linarith, ne_of_gt (by nlinarith), ne_of_gt ?_⟩
    have : (0.9 : ℝ) < M := by
      by_contra hc
      nlinarith [not_lt.mp hc]
    nlinarith
  · rename_i h
    refine ⟨le_refl _, ne_of_gt (by nlinarith [mul_self_nonneg M]), fun h0 => h ?_⟩
    rw [h0]
    norm_num

/-- masses of the particle data table -/
structure AMP.Physical (p : AMP) : Prop where
  piC : 0 < p.piCharged
  pi0 : 0 < p.piNeutral
  kC : 0 < p.kaonCharged
  k0 : 0 < p.kaonNeutral

theorem elem_some (p : AMP) (hp : p.Physical) {M : ℝ} (hM : 0 ≤ M) (i : Fin 2) :
    ∃ m, p.elem (AMP.shift M * AMP.shift M) i = some m := by
  obtain ⟨_, h0, h1⟩ := shift_ne hM
  have hk : 0 < p.kaonMean := by
    unfold AMP.kaonMean
    have := hp.kC
    have := hp.k0
    positivity
  unfold AMP.elem
  rw [fdiv_some h0, fdiv_some h1, fdiv_some (by positivity)]
  exact ⟨_, rfl⟩

/-- phase space of the two channels; `pi pi` is the mean over the charge states, unless for the VES version -/
theorem rho_some (p : AMP) (hp : p.Physical) {M : ℝ} (hM : 0 < M) :
    ∃ r, p.rho M = some r ∧
      r.1.re = (if p.vesSheet then openSpace M p.piCharged p.piCharged
        else (openSpace M p.piCharged p.piCharged + openSpace M p.piNeutral p.piNeutral) / 2) ∧
      r.2.re = (if p.vesSheet then openSpace M p.kaonMean p.kaonMean
        else (openSpace M p.kaonCharged p.kaonCharged + openSpace M p.kaonNeutral p.kaonNeutral) / 2) := by
  have hk : 0 ≤ p.kaonMean := by
    unfold AMP.kaonMean
    have := hp.kC
    have := hp.k0
    positivity
  obtain ⟨k1, e1, r1, i1⟩ := rho_equal' hM hp.piC.le
  obtain ⟨k2, e2, r2, i2⟩ := rho_equal' hM hp.pi0.le
  obtain ⟨k3, e3, r3, i3⟩ := rho_equal' hM hp.kC.le
  obtain ⟨k4, e4, r4, i4⟩ := rho_equal' hM hp.k0.le
  obtain ⟨k5, e5, r5, i5⟩ := rho_equal' hM hk
  have half : ∀ a b : ℂ, ((a + b) / 2).re = (a.re + b.re) / 2 := by
    intro a b
    rw [show (a + b) / 2 = ((1 / 2 : ℝ) : ℂ) * (a + b) by push_cast; ring, Complex.re_ofReal_mul, Complex.add_re]
    ring
  unfold AMP.rho
  rw [e1, e2, e3, e4, e5]
  by_cases hv : p.vesSheet = true
  · simp only [hv, if_true]
    refine ⟨_, rfl, r1, ?_⟩
    dsimp only
    split
    · rename_i him
      -- below threshold: the other sign of an imaginary number
      have hk5 : k5.re = 0 := by
        unfold breakupComplexF breakupMomentumComplex breakupMomentumSquared at e5
        rw [if_neg hM.ne'] at e5
        simp only [Bool.true_eq_false, false_and, if_false, Option.map_some, Option.some.injEq] at e5
        rw [← e5] at him ⊢
        split
        · rfl
        · rename_i hn
          rw [if_neg hn] at him
          exact absurd him (lt_irrefl _)
      have : ∀ k : ℂ, (2 * k / (M : ℂ)).re = 2 * k.re / M := by
        intro k
        rw [Complex.div_ofReal_re]
        simp
      rw [this] at r5 ⊢
      rw [← r5]
      simp [hk5]
    · exact r5
  · simp only [hv, if_false, Bool.false_eq_true]
    refine ⟨_, rfl, ?_, ?_⟩
    · rw [half, r1, r2]
    · rw [half, r3, r4]

/-- **C56**: value of the Au-Morgan-Pennington amplitude (all three versions of the parameters): the inverse
of a real number minus `i` times phase space, hence unitary; if one of the two diagonal elements of the
matrix to be inverted is zero, the value of the previous call is returned -/
theorem AMP.amp_spec (p : AMP) (hp : p.Physical) {M : ℝ} (hM : 0 < M) :
    ∃ (r : ℂ × ℂ) (m11 m22 : ℝ), p.rho (AMP.shift M) = some r ∧
      p.elem (AMP.shift M * AMP.shift M) 0 = some m11 ∧ p.elem (AMP.shift M * AMP.shift M) 1 = some m22 ∧
      ∀ old, (((m11 : ℂ) - Complex.I * r.1 ≠ 0 ∧ (m22 : ℂ) - Complex.I * r.2 ≠ 0) →
          p.amp old M = some (1 / ((m11 : ℂ) - Complex.I * r.1)) ∧
          Unitary r.1.re (1 / ((m11 : ℂ) - Complex.I * r.1))) ∧
        (((m11 : ℂ) - Complex.I * r.1 = 0 ∨ (m22 : ℂ) - Complex.I * r.2 = 0) → p.amp old M = some old) := by
  have hs := (shift_ne hM.le).1
  obtain ⟨r, er, _⟩ := rho_some p hp (lt_of_lt_of_le hM hs)
  obtain ⟨m11, e1⟩ := elem_some p hp hM.le 0
  obtain ⟨m22, e2⟩ := elem_some p hp hM.le 1
  refine ⟨r, m11, m22, er, e1, e2, fun old => ?_⟩
  have e : p.amp old M = (if (m11 : ℂ) - Complex.I * r.1 = 0 ∨ (m22 : ℂ) - Complex.I * r.2 = 0 then some old
      else some (1 / ((m11 : ℂ) - Complex.I * r.1))) := by
    unfold AMP.amp
    dsimp only
    rw [er, e1, e2]
    rfl
  constructor
  · rintro ⟨h1, h2⟩
    rw [e, if_neg (not_or.mpr ⟨h1, h2⟩)]
    refine ⟨rfl, ?_⟩
    have := inv_optical h1
    rwa [show -((m11 : ℂ) - Complex.I * r.1).im = r.1.re by simp] at this
  · intro h
    rw [e, if_pos h]

/-- **C56**: above the `K K` thresholds the amplitude does not depend on previous calls, is finite and
unitary with the phase space of `pi pi` -/
theorem AMP.amp_above (p : AMP) (hp : p.Physical) {M : ℝ} (hM : 0 < M) (h1 : p.piCharged + p.piCharged < M)
    (h2 : p.kaonCharged + p.kaonCharged < M) (h3 : p.kaonNeutral + p.kaonNeutral < M) :
    ∃ T r, (∀ old, p.amp old M = some T) ∧ Unitary r T ∧
      r = (if p.vesSheet then openSpace (AMP.shift M) p.piCharged p.piCharged
        else (openSpace (AMP.shift M) p.piCharged p.piCharged
          + openSpace (AMP.shift M) p.piNeutral p.piNeutral) / 2) := by
  obtain ⟨r, m11, m22, er, _, _, h⟩ := AMP.amp_spec p hp hM
  have hs := (shift_ne hM.le).1
  have hS : 0 < AMP.shift M := lt_of_lt_of_le hM hs
  obtain ⟨r', er', hr1, hr2⟩ := rho_some p hp hS
  rw [er] at er'
  cases er'
  have hk : 0 ≤ p.kaonMean ∧ p.kaonMean + p.kaonMean < M := by
    unfold AMP.kaonMean
    constructor <;> linarith [hp.kC, hp.k0]
  have pos : ∀ {m : ℝ}, 0 ≤ m → m + m < M → 0 < openSpace (AMP.shift M) m m := fun h h' =>
    openSpace_pos hS h h (by linarith)
  have p1 : 0 < r.1.re := by
    rw [hr1]
    split
    · exact pos hp.piC.le h1
    · have := pos hp.piC.le h1
      have := openSpace_nonneg (AMP.shift M) p.piNeutral p.piNeutral
      linarith
  have p2 : 0 < r.2.re := by
    rw [hr2]
    split
    · exact pos hk.1 hk.2
    · have := pos hp.kC.le h2
      have := pos hp.k0.le h3
      linarith
  have ne : ∀ (x : ℝ) (z : ℂ), 0 < z.re → (x : ℂ) - Complex.I * z ≠ 0 := by
    intro x z hz h0
    have := congrArg Complex.im h0
    simp at this
    linarith
  refine ⟨_, r.1.re, fun old => ((h old).1 ⟨ne _ _ p1, ne _ _ p2⟩).1, ((h 0).1 ⟨ne _ _ p1, ne _ _ p2⟩).2, hr1⟩

/-- **C56**: below the `K K` threshold there is a mass at which the amplitude is whatever the previous call
returned (kaon masses 0.5, pion masses 0.14, M solution) -/
theorem AMP.amp_history : ∃ M, 0.28 < M ∧ M < 0.32 ∧
    ∀ old, (AMP.mSolution 0.14 0.135 0.5 0.5).amp old M = some old := by
  obtain ⟨p, hpdef⟩ : ∃ p, p = AMP.mSolution 0.14 0.135 0.5 0.5 := ⟨_, rfl⟩
  rw [← hpdef]
  have hp : p.Physical := by
    rw [hpdef]
    constructor <;> · show (0 : ℝ) < _; norm_num [AMP.mSolution]
  -- the second diagonal element as function of the squared mass
  let f : ℝ → ℝ := fun s => 1 / (s - AMP.sP 0) * p.a 0 1 + 1 / (s - AMP.sP 1) * p.a 1 1 + p.c 0 1
    + (s - 1) * p.c 1 1 + (s - 1) ^ 2 * p.c 2 1 + (s - 1) ^ 3 * p.c 3 1 + (s - 1) ^ 4 * p.c 4 1
    + Real.sqrt (1 / s - 1)
  have s0 : AMP.sP 0 = -0.0074 := rfl
  have s1 : AMP.sP 1 = 0.9828 := rfl
  have a0 : p.a 0 1 = -0.3216 := by rw [hpdef]; rfl
  have a1 : p.a 1 1 = -0.0154 * -0.0154 := by rw [hpdef]; rfl
  have c0 : p.c 0 1 = 0.3010 := by rw [hpdef]; rfl
  have c1 : p.c 1 1 = -0.5140 := by rw [hpdef]; rfl
  have c2 : p.c 2 1 = 0.1176 := by rw [hpdef]; rfl
  have c3 : p.c 3 1 = 0.5204 := by rw [hpdef]; rfl
  have c4 : p.c 4 1 = -0.3977 := by rw [hpdef]; rfl
  have hlo : f 0.0784 < 0 := by
    have : Real.sqrt (1 / 0.0784 - 1) = 24 / 7 := by
      rw [show (1 / 0.0784 - 1 : ℝ) = (24 / 7) ^ 2 by norm_num, Real.sqrt_sq (by norm_num)]
    show _ + Real.sqrt (1 / 0.0784 - 1) < 0
    rw [this, s0, s1, a0, a1, c0, c1, c2, c3, c4]
    norm_num
  have hhi : 0 < f 0.1 := by
    have : Real.sqrt (1 / 0.1 - 1) = 3 := by
      rw [show (1 / 0.1 - 1 : ℝ) = 3 ^ 2 by norm_num, Real.sqrt_sq (by norm_num)]
    show 0 < _ + Real.sqrt (1 / 0.1 - 1)
    rw [this, s0, s1, a0, a1, c0, c1, c2, c3, c4]
    norm_num
  have hcont : ContinuousOn f (Set.Icc 0.0784 0.1) := by
    have d0 : ∀ s ∈ Set.Icc (0.0784 : ℝ) 0.1, s - AMP.sP 0 ≠ 0 := by
      intro s hs; rw [s0]; exact ne_of_gt (by linarith [hs.1])
    have d1 : ∀ s ∈ Set.Icc (0.0784 : ℝ) 0.1, s - AMP.sP 1 ≠ 0 := by
      intro s hs; rw [s1]; exact ne_of_lt (by linarith [hs.2])
    have d2 : ∀ s ∈ Set.Icc (0.0784 : ℝ) 0.1, s ≠ 0 := by
      intro s hs; exact ne_of_gt (by linarith [hs.1])
    have k0 : ContinuousOn (fun s : ℝ => 1 / (s - AMP.sP 0)) (Set.Icc 0.0784 0.1) :=
      continuousOn_const.div (continuousOn_id.sub continuousOn_const) d0
    have k1 : ContinuousOn (fun s : ℝ => 1 / (s - AMP.sP 1)) (Set.Icc 0.0784 0.1) :=
      continuousOn_const.div (continuousOn_id.sub continuousOn_const) d1
    have k2 : ContinuousOn (fun s : ℝ => Real.sqrt (1 / s - 1)) (Set.Icc 0.0784 0.1) :=
      ((continuousOn_const.div continuousOn_id d2).sub continuousOn_const).sqrt
    have k3 : ContinuousOn (fun s : ℝ => p.c 0 1 + (s - 1) * p.c 1 1 + (s - 1) ^ 2 * p.c 2 1
        + (s - 1) ^ 3 * p.c 3 1 + (s - 1) ^ 4 * p.c 4 1) (Set.Icc 0.0784 0.1) := by
      apply Continuous.continuousOn; fun_prop
    have := ((((k0.mul (continuousOn_const (c := p.a 0 1))).add (k1.mul (continuousOn_const (c := p.a 1 1)))).add k3).add k2)
    refine this.congr fun s _ => ?_
    show f s = _
    simp only [f, Pi.add_apply, Pi.mul_apply]
    ring
  obtain ⟨s, hs, hf⟩ := intermediate_value_Icc (by norm_num) hcont (show (0 : ℝ) ∈ Set.Icc (f 0.0784) (f 0.1) from
    ⟨hlo.le, hhi.le⟩)
  have hslo : 0.0784 < s := lt_of_le_of_ne hs.1 fun h => by rw [← h] at hf; exact hlo.ne hf
  have hspos : 0 < s := by linarith
  obtain ⟨M, hMdef⟩ : ∃ M, M = Real.sqrt s := ⟨_, rfl⟩
  have hMM : M * M = s := by rw [hMdef, Real.mul_self_sqrt hspos.le]
  have hMpos : 0 < M := by rw [hMdef]; exact Real.sqrt_pos.mpr hspos
  have hM1 : 0.28 < M := by
    by_contra hc
    nlinarith [not_lt.mp hc]
  have hM2 : M < 0.32 := by
    by_contra hc
    nlinarith [not_lt.mp hc, hs.2]
  refine ⟨M, hM1, hM2, ?_⟩
  have hshift : AMP.shift M = M := by
    unfold AMP.shift
    rw [if_neg]
    rw [hMM, s1, not_lt, abs_of_neg (by linarith [hs.2])]
    linarith [hs.2]
  obtain ⟨r, m11, m22, er, _, e2, h⟩ := AMP.amp_spec p hp hMpos
  rw [hshift] at er e2
  refine fun old => (h old).2 (Or.inr ?_)
  have hkC : p.kaonCharged = 0.5 := by rw [hpdef]; rfl
  have hk0 : p.kaonNeutral = 0.5 := by rw [hpdef]; rfl
  have hves : p.vesSheet = false := by rw [hpdef]; rfl
  -- phase space of the closed channel
  have hr : r.2 = Complex.I * ((Real.sqrt (1 / s - 1) : ℝ) : ℂ) := by
    obtain ⟨k, ek, x, hx, hk⟩ := rho_closed (M := M) (m1 := 0.5) (m2 := 0.5) hMpos (by norm_num) (by norm_num)
      (by simpa using hMpos) (by norm_num; linarith)
    obtain ⟨k', ek', hsq, _⟩ := breakupMomentumComplex_spec (M := M) (m1 := 0.5) (m2 := 0.5) hMpos
      (by norm_num) (by norm_num)
    have hkk : k' = k := by
      unfold breakupComplexF at ek
      rw [if_neg hMpos.ne', ek'] at ek
      exact Option.some.inj ek
    rw [hkk] at hsq
    have hx2 : x ^ 2 = 1 / s - 1 := by
      have hMc : (M : ℂ) ≠ 0 := by exact_mod_cast hMpos.ne'
      have h4 : (Complex.I * (x : ℂ)) ^ 2 = 4 * k ^ 2 / (M : ℂ) ^ 2 := by rw [← hk]; ring
      rw [hsq, mul_pow, Complex.I_sq] at h4
      have h5 : (x : ℂ) ^ 2 = ((1 / s - 1 : ℝ) : ℂ) := by
        have h6 : -(x : ℂ) ^ 2 = ((4 * ((M ^ 2 - (0.5 + 0.5) ^ 2) * (M ^ 2 - (0.5 - 0.5) ^ 2) / (4 * M ^ 2)) / M ^ 2 : ℝ) : ℂ) := by
          rw [neg_eq_neg_one_mul, h4]; push_cast; ring
        have h7 : (4 * ((M ^ 2 - (0.5 + 0.5) ^ 2) * (M ^ 2 - (0.5 - 0.5) ^ 2) / (4 * M ^ 2)) / M ^ 2 : ℝ) = -(1 / s - 1) := by
          rw [← hMM]; field_simp; ring
        rw [h7] at h6
        push_cast at h6 ⊢
        linear_combination -h6
      exact_mod_cast h5
    have hxs : x = Real.sqrt (1 / s - 1) := by rw [← hx2, Real.sqrt_sq hx.le]
    obtain ⟨k1, e1, _⟩ := rho_equal' hMpos hp.piC.le
    obtain ⟨k2, e2', _⟩ := rho_equal' hMpos hp.pi0.le
    obtain ⟨k5, e5, _⟩ := rho_equal' (m := p.kaonMean) hMpos (by unfold AMP.kaonMean; rw [hkC, hk0]; norm_num)
    unfold AMP.rho at er
    rw [hkC, hk0, e1, e2', ek, e5, hves] at er
    have er' := Option.some.inj er
    rw [← er', ← hxs, ← hk]
    show (2 * k / (M : ℂ) + 2 * k / (M : ℂ)) / 2 = _
    ring
  rw [hr]
  have hm : m22 = f s - Real.sqrt (1 / s - 1) := by
    unfold AMP.elem at e2
    have hkm : 4 * p.kaonMean * p.kaonMean = 1 := by unfold AMP.kaonMean; rw [hkC, hk0]; norm_num
    obtain ⟨_, n0, n1⟩ := shift_ne hMpos.le
    rw [hshift] at n0 n1
    rw [fdiv_some n0, fdiv_some n1, hkm, fdiv_some one_ne_zero, hMM, div_one] at e2
    have e2' := Option.some.inj e2
    rw [← e2']
    show _ = f s - _
    simp only [f]
    ring
  rw [hm, hf, zero_sub]
  push_cast
  linear_combination (-((Real.sqrt (1 / s - 1) : ℝ) : ℂ)) * Complex.I_mul_I

/-! ## generalised LASS -/

theorem sin_exp (d : ℝ) : ((Real.sin d : ℝ) : ℂ) * Complex.exp ⟨0, d⟩
    = (Complex.exp ⟨0, 2 * d⟩ - 1) / (2 * Complex.I) := by
  have e : ∀ x : ℝ, (⟨0, x⟩ : ℂ) = (x : ℂ) * Complex.I := by
    intro x; apply Complex.ext <;> simp
  rw [e, e, Complex.ofReal_sin, Complex.sin]
  have h1 : Complex.exp (-(d : ℂ) * Complex.I) * Complex.exp ((d : ℂ) * Complex.I) = 1 := by
    rw [← Complex.exp_add]; simp
  have h2 : Complex.exp ((d : ℂ) * Complex.I) * Complex.exp ((d : ℂ) * Complex.I)
      = Complex.exp (((2 * d : ℝ) : ℂ) * Complex.I) := by
    rw [← Complex.exp_add]; push_cast; ring_nf
  rw [← h2, eq_div_iff (by simp)]
  linear_combination (-1) * h1 + (Complex.exp (-(d : ℂ) * Complex.I) * Complex.exp ((d : ℂ) * Complex.I)
    - Complex.exp ((d : ℂ) * Complex.I) * Complex.exp ((d : ℂ) * Complex.I)) * Complex.I_sq

/-- two phases add up -/
theorem sin_exp_add (x y : ℝ) : ((Real.sin x : ℝ) : ℂ) * Complex.exp ⟨0, x⟩
    + ((Real.sin y : ℝ) : ℂ) * Complex.exp ⟨0, y⟩ * Complex.exp ⟨0, 2 * x⟩
    = ((Real.sin (x + y) : ℝ) : ℂ) * Complex.exp ⟨0, x + y⟩ := by
  have h : Complex.exp ⟨0, 2 * y⟩ * Complex.exp ⟨0, 2 * x⟩ = Complex.exp ⟨0, 2 * (x + y)⟩ := by
    rw [← Complex.exp_add]
    congr 1
    apply Complex.ext
    · simp
    · simp; ring
  rw [sin_exp, sin_exp, sin_exp, ← h]
  ring

theorem atanDiv_spec {a b : ℝ} (h : a ≠ 0 ∨ b ≠ 0) :
    ∃ d, atanDiv a b = some d ∧ Real.cos d * a = Real.sin d * b := by
  unfold atanDiv
  by_cases hb : b = 0
  · rw [if_pos hb]
    have ha : a ≠ 0 := by
      rcases h with h | h
      · exact h
      · exact absurd hb h
    rw [if_neg ha]
    split
    · exact ⟨_, rfl, by rw [Real.cos_pi_div_two, hb]; ring⟩
    · exact ⟨_, rfl, by rw [Real.cos_neg, Real.cos_pi_div_two, hb]; ring⟩
  · rw [if_neg hb]
    refine ⟨_, rfl, ?_⟩
    have hc := Real.cos_arctan_pos (a / b)
    have ht := Real.tan_arctan (a / b)
    rw [Real.tan_eq_sin_div_cos, div_eq_div_iff hc.ne' hb] at ht
    linarith

/-- **C56**: generalised LASS amplitude of the `K pi` S wave between threshold and upper limit, for a
resonance above threshold: phases of effective-range term and resonance (with their offsets) -/
theorem Glass.amp_spec (g : Glass) {M : ℝ} (hK : 0 ≤ g.kaonCharged) (hPi : 0 ≤ g.piCharged) (hG : 0 < g.G0)
    (hM : g.kaonCharged + g.piCharged < M) (hMax : M < g.MMax) (hM0 : g.kaonCharged + g.piCharged < g.M0) :
    ∃ q q0 dF dR : ℝ, Decays M g.kaonCharged g.piCharged q ∧ Decays g.M0 g.kaonCharged g.piCharged q0 ∧
      Real.cos dF * (2 * g.a * q) = Real.sin dF * (2 + g.a * g.r * q ^ 2) ∧
      Real.cos dR * (g.M0 * (g.G0 * (g.M0 / M) * (q / q0))) = Real.sin dR * (g.M0 ^ 2 - M ^ 2) ∧
      g.amp M = some ((g.F * (Real.sin (dF + g.phiF) : ℝ) * Complex.exp ⟨0, dF + g.phiF⟩
        + g.R * (Real.sin (dR + g.phiRsin) : ℝ) * Complex.exp ⟨0, dR + g.phiR⟩
          * Complex.exp ⟨0, 2 * (dF + g.phiF)⟩) * ((1 / phaseSpace M g.kaonCharged g.piCharged : ℝ) : ℂ)) := by
  have hMp : 0 < M := by linarith
  have hM0p : 0 < g.M0 := by linarith
  obtain ⟨q, hd, e, _, hp⟩ := breakup_some hMp hK hPi hM.le
  obtain ⟨q0, hd0, e0, _, hp0⟩ := breakup_some hM0p hK hPi hM0.le
  have hq := hp hM
  have hq0 := hp0 hM0
  obtain ⟨dF, eF, hF⟩ := atanDiv_spec (a := 2 * g.a * q) (b := 2 + g.a * g.r * q * q) (by
    by_cases ha : g.a = 0
    · right; rw [ha]; norm_num
    · left; exact mul_ne_zero (mul_ne_zero two_ne_zero ha) hq.ne')
  obtain ⟨dR, eR, hR⟩ := atanDiv_spec (a := g.M0 * (g.G0 * g.M0 / M * q / q0)) (b := g.M0 * g.M0 - M * M)
    (Or.inl (by positivity))
  refine ⟨q, q0, dF, dR, hd, hd0, by linear_combination hF, ?_, ?_⟩
  · rw [show g.G0 * (g.M0 / M) * (q / q0) = g.G0 * g.M0 / M * q / q0 by ring]
    linear_combination hR
  · unfold Glass.amp
    rw [if_pos ⟨hM, hMax⟩, e, e0]
    change (fdiv (g.G0 * g.M0) M).bind _ = _
    rw [fdiv_some hMp.ne', Option.bind_some]
    change (fdiv _ q0).bind _ = _
    rw [fdiv_some hq0.ne', Option.bind_some]
    change (atanDiv _ _).bind _ = _
    rw [eR, Option.bind_some]
    change (atanDiv _ _).bind _ = _
    rw [eF, Option.bind_some]
    change (fdiv _ q).bind _ = _
    rw [fdiv_some hq.ne', Option.bind_some, ← phaseSpace_eq hMp hK hPi hM.le hd,
      show 0.5 * M / q = 1 / (2 * q / M) by field_simp; norm_num]

/-- **C56**: with both magnitudes 1 and equal phase offsets of the resonance the amplitude is elastic:
`sin(delta) e^(i delta) / rho`, hence unitary -/
theorem Glass.amp_unitary (g : Glass) {M : ℝ} (hK : 0 ≤ g.kaonCharged) (hPi : 0 ≤ g.piCharged) (hG : 0 < g.G0)
    (hM : g.kaonCharged + g.piCharged < M) (hMax : M < g.MMax) (hM0 : g.kaonCharged + g.piCharged < g.M0)
    (h1 : g.F = 1) (h2 : g.R = 1) (h3 : g.phiRsin = g.phiR) :
    ∃ T, g.amp M = some T ∧ Unitary (phaseSpace M g.kaonCharged g.piCharged) T := by
  obtain ⟨q, q0, dF, dR, _, _, _, _, e⟩ := Glass.amp_spec g hK hPi hG hM hMax hM0
  refine ⟨_, e, ?_⟩
  have hr := phaseSpace_pos (by linarith : 0 < M) hK hPi hM
  generalize phaseSpace M g.kaonCharged g.piCharged = r at *
  rw [h1, h2, h3, Complex.ofReal_one, one_mul, one_mul, sin_exp_add]
  generalize dF + g.phiF + (dR + g.phiR) = d
  have he : Complex.exp ⟨0, d⟩ = ⟨Real.cos d, Real.sin d⟩ := by
    rw [show (⟨0, d⟩ : ℂ) = (d : ℂ) * Complex.I by apply Complex.ext <;> simp, Complex.exp_mul_I]
    apply Complex.ext
    · simp [← Complex.ofReal_cos, ← Complex.ofReal_sin]
    · simp [← Complex.ofReal_cos, ← Complex.ofReal_sin]
  unfold Unitary
  rw [he, Complex.normSq_mul, Complex.normSq_mul, Complex.normSq_ofReal, Complex.normSq_ofReal, Complex.normSq_mk,
    mul_assoc, Complex.im_ofReal_mul, Complex.mul_im, Complex.ofReal_re, Complex.ofReal_im]
  have := Real.sin_sq_add_cos_sq d
  field_simp
  linear_combination (-Real.sin d ^ 2) * this

/-- **C56**: outside of its range it is 0, and it aborts within the range if the resonance is below threshold -/
theorem Glass.amp_outside (g : Glass) (M : ℝ) :
    (¬ (g.kaonCharged + g.piCharged < M ∧ M < g.MMax) → g.amp M = some 0) ∧
    (g.kaonCharged + g.piCharged < M ∧ M < g.MMax → g.M0 < g.kaonCharged + g.piCharged → g.amp M = none) := by
  constructor
  · intro h
    unfold Glass.amp
    rw [if_neg h]
  · intro h h0
    unfold Glass.amp
    rw [if_pos h, (breakup_abort h0).1]
    cases breakupF M g.kaonCharged g.piCharged <;> rfl

/-! ## Palano, Pennington -/

theorem Palano.K_symm (p : Palano) (s : ℝ) : p.K s 1 0 = p.K s 0 1 := by
  unfold Palano.K
  have : Palano.C 1 0 = Palano.C 0 1 := rfl
  rw [mul_comm (Palano.ga 1), mul_comm (Palano.gb 1), this]

/-- **C56**: the Palano-Pennington amplitude of the `K pi` S wave is the `K pi → K pi` element of the
amplitude of a real symmetric K matrix, hence unitary with the phase space of the open channels `K pi` and
`K eta` -/
theorem Palano.amp_spec (p : Palano) {M : ℝ} (hK : 0 ≤ p.kaonCharged) (hPi : 0 ≤ p.piCharged) (hE : 0 ≤ p.eta)
    (hM : p.kaonCharged + p.piCharged < M) (hMax : M < p.MMax) (hd : |p.kaonCharged - p.eta| < M) {A : ℂ}
    (h : p.amp M = some A) :
    ∃ (K : Matrix (Fin 2) (Fin 2) ℝ) (rho : Fin 2 → ℂ) (T : Matrix (Fin 2) (Fin 2) ℂ),
      (∀ i j, p.K (M * M) i j = some (K i j)) ∧
      rho 0 = ((phaseSpace M p.kaonCharged p.piCharged : ℝ) : ℂ) ∧
      (rho 1).re = openSpace M p.kaonCharged p.eta ∧
      KMatrix K rho T ∧ A = T 0 0 ∧
      A.im = phaseSpace M p.kaonCharged p.piCharged * Complex.normSq (T 0 0)
        + openSpace M p.kaonCharged p.eta * Complex.normSq (T 1 0) := by
  have hMp : 0 < M := by linarith
  obtain ⟨k, e, hk⟩ := rho_open hMp hK hPi hM.le
  obtain ⟨k', e', hk'⟩ : ∃ k', breakupComplexF M p.kaonCharged p.eta = some k' ∧
      (2 * k' / (M : ℂ)).re = openSpace M p.kaonCharged p.eta := by
    unfold openSpace
    split
    · rename_i ht
      obtain ⟨k', e', r⟩ := rho_open hMp hK hE ht
      exact ⟨k', e', by rw [r, Complex.ofReal_re]⟩
    · rename_i ht
      obtain ⟨k', e', x, _, r⟩ := rho_closed hMp hK hE hd (not_le.mp ht)
      exact ⟨k', e', by rw [r]; simp⟩
  unfold Palano.amp at h
  rw [if_pos ⟨hM, hMax⟩, e, e'] at h
  change (p.K (M * M) 0 0).bind _ = _ at h
  cases e00 : p.K (M * M) 0 0 with
  | none => rw [e00] at h; cases h
  | some k11 =>
  rw [e00, Option.bind_some] at h
  change (p.K (M * M) 0 1).bind _ = _ at h
  cases e01 : p.K (M * M) 0 1 with
  | none => rw [e01] at h; cases h
  | some k12 =>
  rw [e01, Option.bind_some] at h
  change (p.K (M * M) 1 1).bind _ = _ at h
  cases e11 : p.K (M * M) 1 1 with
  | none => rw [e11] at h; cases h
  | some k22 =>
  rw [e11, Option.bind_some, hk] at h
  rw [← hk']
  generalize phaseSpace M p.kaonCharged p.piCharged = r at *
  generalize 2 * k' / (M : ℂ) = z at *
  unfold cdiv at h
  dsimp only at h
  split at h
  · cases h
  rename_i hD
  have hA := (Option.some.inj h).symm
  obtain ⟨D, hDe⟩ : ∃ D, D = 1 - Complex.I * (r : ℂ) * (k11 : ℂ) - Complex.I * z * (k22 : ℂ)
    - (r : ℂ) * z * ((k11 : ℂ) * k22 - (k12 : ℂ) * k12) := ⟨_, rfl⟩
  rw [← hDe] at hA hD
  refine ⟨!![k11, k12; k12, k22], ![(r : ℂ), z],
    !![((k11 : ℂ) - Complex.I * z * ((k11 : ℂ) * k22 - (k12 : ℂ) * k12)) / D, (k12 : ℂ) / D;
       (k12 : ℂ) / D, ((k22 : ℂ) - Complex.I * r * ((k11 : ℂ) * k22 - (k12 : ℂ) * k12)) / D], ?_, rfl, rfl, ?_, hA, ?_⟩
  · intro i j
    fin_cases i <;> fin_cases j
    · exact e00
    · exact e01
    · exact (Palano.K_symm p _).trans e01
    · exact e11
  · unfold KMatrix
    ext i j
    fin_cases i <;> fin_cases j
    · simp [Matrix.mul_apply, Fin.sum_univ_two, Matrix.diagonal]
      field_simp
      rw [hDe]
      ring_nf
      simp only [Complex.I_sq]
      ring
    · simp [Matrix.mul_apply, Fin.sum_univ_two, Matrix.diagonal]
      field_simp
      rw [hDe]
      ring_nf
      simp only [Complex.I_sq]
      ring
    · simp [Matrix.mul_apply, Fin.sum_univ_two, Matrix.diagonal]
      field_simp
      rw [hDe]
      ring_nf
      simp only [Complex.I_sq]
      ring
    · simp [Matrix.mul_apply, Fin.sum_univ_two, Matrix.diagonal]
      field_simp
      rw [hDe]
      ring_nf
      simp only [Complex.I_sq]
      ring
  · show A.im = r * Complex.normSq (((k11 : ℂ) - Complex.I * z * ((k11 : ℂ) * k22 - (k12 : ℂ) * k12)) / D)
      + z.re * Complex.normSq ((k12 : ℂ) / D)
    have hn : Complex.normSq D ≠ 0 := fun h0 => hD (Complex.normSq_eq_zero.mp h0)
    rw [hA, Complex.normSq_div, Complex.normSq_div, Complex.div_im]
    field_simp
    rw [hDe, Complex.normSq_apply, Complex.normSq_apply]
    simp [pow_two]
    ring

/-- **C56**: it is a number except at the poles of the K matrix, at least where both channels are open -/
theorem Palano.amp_some (p : Palano) {M : ℝ} (hK : 0 < p.kaonCharged) (hPi : 0 ≤ p.piCharged) (hE : 0 ≤ p.eta)
    (hM : p.kaonCharged + p.piCharged < M) (hMax : M < p.MMax) (hM' : p.kaonCharged + p.eta < M)
    (h1 : M * M ≠ 1.7991) (h2 : M * M ≠ 8.3627) : ∃ A, p.amp M = some A := by
  have hMp : 0 < M := by linarith
  obtain ⟨k, e, hk⟩ := rho_open hMp hK.le hPi hM.le
  obtain ⟨k', e', hk'⟩ := rho_open hMp hK.le hE hM'.le
  have kk : ∀ i j, ∃ x, p.K (M * M) i j = some x := by
    intro i j
    unfold Palano.K
    have hs : p.kaonCharged * p.kaonCharged + p.piCharged * p.piCharged ≠ 0 := by positivity
    dsimp only
    rw [fdiv_some hs, fdiv_some (sub_ne_zero.mpr h1.symm), fdiv_some (sub_ne_zero.mpr h2.symm)]
    exact ⟨_, rfl⟩
  obtain ⟨k11, e00⟩ := kk 0 0
  obtain ⟨k12, e01⟩ := kk 0 1
  obtain ⟨k22, e11⟩ := kk 1 1
  unfold Palano.amp
  rw [if_pos ⟨hM, hMax⟩]
  dsimp only
  rw [e, e', e00, e01, e11]
  change ∃ A, cdiv _ _ = some A
  rw [hk, hk', cdiv_some]
  · exact ⟨_, rfl⟩
  · have p1 := phaseSpace_pos hMp hK.le hPi hM
    have p2 := phaseSpace_pos hMp hK.le hE hM'
    generalize phaseSpace M p.kaonCharged p.piCharged = a at *
    generalize phaseSpace M p.kaonCharged p.eta = b at *
    intro h0
    have hre := congrArg Complex.re h0
    have him := congrArg Complex.im h0
    simp at hre him
    have h3 : b * k22 = -(a * k11) := by linarith
    have h4 : a * b * (k11 * k22) = -(a * k11) ^ 2 := by
      calc a * b * (k11 * k22) = (a * k11) * (b * k22) := by ring
        _ = _ := by rw [h3]; ring
    nlinarith [sq_nonneg (a * k11), mul_nonneg (mul_pos p1 p2).le (mul_self_nonneg k12)]

theorem Palano.amp_outside (p : Palano) (M : ℝ) (h : ¬ (p.kaonCharged + p.piCharged < M ∧ M < p.MMax)) :
    p.amp M = some 0 := by
  unfold Palano.amp
  rw [if_neg h]

/-! ## rho', binned amplitudes -/

theorem unit_circle {A B : ℝ} (hA : A ≠ 0) : ∃ T, bwForm A B A = some T ∧ Unitary 1 T ∧ ‖T‖ ≤ 1 := by
  refine ⟨_, bwForm_some (Or.inr hA), ?_, ?_⟩
  · have := bw_optical (A := A) (B := B) (C := A) (Or.inr hA)
    unfold Unitary
    rw [one_mul]
    exact (mul_left_cancel₀ hA this).symm
  · have := bw_optical (A := A) (B := B) (C := A) (Or.inr hA)
    have h := mul_left_cancel₀ hA this
    generalize ((A : ℂ) / ((B : ℂ) - Complex.I * (A : ℂ))) = T at *
    have h1 := Complex.abs_im_le_norm T
    rw [Complex.normSq_eq_norm_sq] at h
    have h2 := le_trans (le_abs_self _) h1
    rw [← h] at h2
    by_contra hc
    nlinarith [not_le.mp hc, norm_nonneg T]

/-- **C56**: the combined amplitude of rho(1450) and rho(1700) is a number of modulus at most 1 for every mass -/
theorem rhoPrime_spec (M : ℝ) : ∃ T, rhoPrime M = some T ∧ ‖T‖ ≤ 1 := by
  obtain ⟨T1, e1, _, n1⟩ := unit_circle (A := 1.465 * 0.235) (B := 1.465 * 1.465 - M * M) (by norm_num)
  obtain ⟨T2, e2, _, n2⟩ := unit_circle (A := 1.700 * 0.220) (B := 1.700 * 1.700 - M * M) (by norm_num)
  refine ⟨(4 * T1 - 3 * T2) / 7, ?_, ?_⟩
  · unfold rhoPrime
    dsimp only
    rw [e1, e2]
    rfl
  · rw [norm_div]
    have h := norm_sub_le (4 * T1) (3 * T2)
    rw [norm_mul, norm_mul] at h
    have h7 : ‖(7 : ℂ)‖ = 7 := by simp
    have h4 : ‖(4 : ℂ)‖ = 4 := by simp
    have h3 : ‖(3 : ℂ)‖ = 3 := by simp
    rw [h4, h3] at h
    rw [h7, div_le_one (by norm_num)]
    linarith

/-- sum of the amplitudes of the bins between consecutive edges -/
noncomputable def binSum (M : ℝ) : ℝ → List ℝ → ℂ
  | _, [] => 0
  | a, b :: l => binned a b M + binSum M b l

theorem binned_add {a b c M : ℝ} (h1 : a ≤ b) (h2 : b ≤ c) : binned a b M + binned b c M = binned a c M := by
  unfold binned
  rcases lt_or_ge M a with h | h
  · rw [if_neg (by rintro ⟨x, _⟩; linarith), if_neg (by rintro ⟨x, _⟩; linarith),
      if_neg (by rintro ⟨x, _⟩; linarith), add_zero]
  · rcases lt_or_ge M b with h' | h'
    · rw [if_pos ⟨h, h'⟩, if_neg (by rintro ⟨x, _⟩; linarith), if_pos ⟨h, by linarith⟩, add_zero]
    · rw [if_neg (by rintro ⟨_, x⟩; linarith), zero_add]
      by_cases hc : M < c
      · rw [if_pos ⟨h', hc⟩, if_pos ⟨h, hc⟩]
      · rw [if_neg (fun x => hc x.2), if_neg (fun x => hc x.2)]

/-- **C56**: the binned amplitudes of adjacent mass bins add up to the flat amplitude over the whole range,
edges included: no mass is counted twice or lost -/
theorem binSum_spec {M a : ℝ} : ∀ {l : List ℝ}, (a :: l).Pairwise (· ≤ ·) → ∀ c, c = (a :: l).getLast (by simp) →
    binSum M a l = (if a ≤ M ∧ M < c then flat else 0) := by
  intro l
  induction l generalizing a with
  | nil =>
    intro _ c hc
    simp only [List.getLast_singleton] at hc
    rw [hc, if_neg (by rintro ⟨x, y⟩; linarith)]
    rfl
  | cons b l ih =>
    intro hs c hc
    rw [List.getLast_cons (by simp)] at hc
    have hs' := (List.pairwise_cons.mp hs).2
    have hab : a ≤ b := (List.pairwise_cons.mp hs).1 b (by simp)
    have hbc : b ≤ c := by
      rcases List.mem_cons.mp (hc ▸ List.getLast_mem (l := b :: l) (by simp)) with h | h
      · exact h.ge
      · exact (List.pairwise_cons.mp hs').1 c h
    show binned a b M + binSum M b l = _
    have e : (if b ≤ M ∧ M < c then flat else 0) = binned b c M := rfl
    rw [ih hs' c hc, e, binned_add hab hbc]
    rfl

/-- three bins -/
example : binSum 1.2 1 [1.1, 1.2, 1.3] = 1 := by
  rw [binSum_spec (by norm_num) 1.3 (by simp), if_pos (by norm_num)]
  rfl

end Rpwa.MassDep
