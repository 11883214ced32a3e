import Verif.Lemmas.Amplitude

/-!
# Two-body amplitudes of mirrored momenta
-/

namespace Rpwa.Amp

open Rpwa.Gen Rpwa.Amp.Spec

theorem racah_ne {j1 m1 j2 m2 J M : ℤ} (h : Clebsch.racah j1 m1 j2 m2 J M ≠ 0) : Clebsch.Selected j1 m1 j2 m2 J M := by
  by_contra hc
  exact h (if_neg hc)

theorem proj_even {j m : ℤ} (hj : 2 ∣ j) (h : Clebsch.Proj j m) : 2 ∣ m := by
  obtain ⟨k, hk, -⟩ := h
  omega

theorem proj_d {j m : ℤ} (h : Clebsch.Proj j m) : DFunction.Proj j m := h

/-- value of the helicity amplitude without the early returns -/
noncomputable def helVal (J Lambda : ℤ) (v : DecayVtx) (M : ℝ) (p : LV) (M1 M2 : ℝ) (s1 s2 l1 l2 : ℤ) : ℂ :=
  (Real.sqrt (v.L + 1) : ℂ) * (ang p ^ (Lambda / 2) * (DFunction.wignerD J Lambda (l1 - l2) (theta p.vect) : ℂ))
    * (Clebsch.racah v.L 0 v.S (l1 - l2) J (l1 - l2) : ℂ) * (Clebsch.racah s1 l1 s2 (-l2) v.S (l1 - l2) : ℂ)
    * (Phys.barrierFactor v.L p.P : ℂ) * v.massDep M M1 M2

theorem hel_eq {J P refl Lambda : ℤ} (hL : 2 ∣ Lambda) (v : DecayVtx) (parent : LV) (d1 d2 : Part) (l1 l2 : ℤ) :
    helTwoBody false J P refl Lambda v parent d1 d2 l1 l2 =
      helVal J Lambda v (mass parent) d1.lz (mass d1.lz) (mass d2.lz) d1.J d2.J l1 l2 := by
  unfold helTwoBody helVal
  dsimp only
  split_ifs with h1 h2 h3
  · rw [h1]; push_cast; ring
  · rw [h2]; push_cast; ring
  · exact absurd h3 (by simp)
  · unfold bigD
    rw [map_mul, conj_exp_phi hL, Complex.conj_ofReal]

/-- amplitude in the reflectivity basis, made from amplitudes for the two signs of the spin projection -/
noncomputable def reflComb (f M : ℤ) (A : ℤ → ℂ) : ℂ :=
  if M = 0 then (if f = 1 then 0 else A 0) else ((1 / Real.sqrt 2 : ℝ) : ℂ) * (A M - (f : ℂ) * A (-M))

theorem hel_refl (J P refl Lambda : ℤ) (v : DecayVtx) (parent : LV) (d1 d2 : Part) (l1 l2 : ℤ) :
    helTwoBody true J P refl Lambda v parent d1 d2 l1 l2 =
      reflComb (Phys.reflectivityFactor J P Lambda refl) Lambda
        fun m => helTwoBody false J P refl m v parent d1 d2 l1 l2 := by
  unfold helTwoBody reflComb bigDRefl
  dsimp only
  by_cases h1 : Clebsch.racah v.L 0 v.S (l1 - l2) J (l1 - l2) = 0
  · rw [if_pos h1]
    split_ifs <;> simp
  · by_cases h2 : Clebsch.racah d1.J l1 d2.J (-l2) v.S (l1 - l2) = 0
    · simp only [if_neg h1, if_pos h2]
      split_ifs <;> simp
    · simp only [if_neg h1, if_neg h2, if_true, Bool.false_eq_true, if_false]
      split_ifs with h3 h4
      · simp
      · rfl
      · rw [map_mul, map_sub, map_mul, Complex.conj_ofReal, map_intCast]
        ring

theorem signs {L J S s1 s2 l1 l2 Lambda : ℤ} (hL : 2 ∣ L) (hJ : 2 ∣ J) (hS : 2 ∣ S) (h1 : 2 ∣ s1) (h2 : 2 ∣ s2)
    (hl1 : 2 ∣ l1) (hl2 : 2 ∣ l2) (hLa : 2 ∣ Lambda) :
    sg (L - J + s1 + s2) * sg (Lambda + (l1 - l2)) * (sg (L + S - J) * sg (s1 + s2 - S) * sg (Lambda - (l1 - l2))) = 1 := by
  rw [← sg_add (by omega), ← sg_add (by omega), ← sg_add (by omega), ← sg_add (by omega)]
  exact sg_four _ (by omega)

theorem ls_neg (v : DecayVtx) (J l : ℤ) :
    (Clebsch.racah v.L 0 v.S (-l) J (-l) : ℂ) = sg (v.L + v.S - J) * (Clebsch.racah v.L 0 v.S l J l : ℂ) := by
  have := Clebsch.racah_neg v.L 0 v.S l J l
  rw [neg_zero] at this
  rw [this, Complex.ofReal_mul, sg_cast]

theorem ss_neg (s1 l1 s2 l2 S l : ℤ) :
    (Clebsch.racah s1 (-l1) s2 (-l2) S (-l) : ℂ) = sg (s1 + s2 - S) * (Clebsch.racah s1 l1 s2 l2 S l : ℂ) := by
  rw [Clebsch.racah_neg, Complex.ofReal_mul, sg_cast]

/-- reflected momentum in the decay: opposite spin projections -/
theorem helVal_reflY {J Lambda : ℤ} {v : DecayVtx} (hL : 2 ∣ v.L) (hJ : 2 ∣ J) {s1 s2 l1 l2 : ℤ} (h1 : 2 ∣ s1) (h2 : 2 ∣ s2)
    (hLa : Clebsch.Proj J Lambda) (M : ℝ) (p : LV) (M1 M2 : ℝ) :
    helVal J Lambda v M (reflY p) M1 M2 s1 s2 l1 l2 =
      sg (v.L - J + s1 + s2) * sg (Lambda + (l1 - l2)) * helVal J (-Lambda) v M p M1 M2 s1 s2 (-l1) (-l2) := by
  unfold helVal
  have e : -l1 - -l2 = -(l1 - l2) := by ring
  rw [e, ls_neg, ss_neg, P_reflY, theta_reflY]
  by_cases hc : Clebsch.racah v.L 0 v.S (l1 - l2) J (l1 - l2) = 0
  · rw [hc]; push_cast; ring
  by_cases hc2 : Clebsch.racah s1 l1 s2 (-l2) v.S (l1 - l2) = 0
  · rw [hc2]; push_cast; ring
  obtain ⟨-, -, hp, -, -, -, -, ⟨k, hk⟩⟩ := racah_ne hc
  obtain ⟨hp1, hp2, -⟩ := racah_ne hc2
  have hS : 2 ∣ v.S := by omega
  have hl1 := proj_even h1 hp1
  have hl2 : 2 ∣ l2 := by have := proj_even h2 hp2; omega
  have hLe := proj_even hJ hLa
  rw [DFunction.wignerD_neg (proj_d hLa) (proj_d hp), ang_reflY]
  have ha : (ang p)⁻¹ ^ (Lambda / 2) = ang p ^ (-Lambda / 2) := by
    rw [inv_zpow']
    congr 1
    omega
  rw [ha, Complex.ofReal_mul, sg_cast]
  have hs := signs hL hJ hS h1 h2 hl1 hl2 hLe
  linear_combination (-(Real.sqrt (v.L + 1) : ℂ) * (ang p ^ (-Lambda / 2) *
    (DFunction.wignerD J Lambda (l1 - l2) (theta p.vect) : ℂ)) * (Clebsch.racah v.L 0 v.S (l1 - l2) J (l1 - l2) : ℂ) *
    (Clebsch.racah s1 l1 s2 (-l2) v.S (l1 - l2) : ℂ) * (Phys.barrierFactor v.L p.P : ℂ) * v.massDep M M1 M2) * hs

/-- reflection of the x-component -/
def reflX (p : LV) : LV := ⟨-p.x, p.y, p.z, p.t⟩

theorem sg_of (k : ℤ) : (-1 : ℂ) ^ (k / 2) = sg k := rfl

theorem helVal_reflX {J Lambda : ℤ} {v : DecayVtx} (p : LV) (hp : p.x ≠ 0 ∨ p.y ≠ 0) (M M1 M2 : ℝ) (s1 s2 l1 l2 : ℤ) :
    helVal J Lambda v M (reflX p) M1 M2 s1 s2 l1 l2 = sg Lambda * helVal J Lambda v M (reflY p) M1 M2 s1 s2 l1 l2 := by
  unfold helVal
  have ht : theta (reflX p).vect = theta (reflY p).vect := by
    unfold theta reflX reflY LV.vect
    dsimp only
    rw [neg_mul_neg, neg_mul_neg]
  have hP : (reflX p).P = (reflY p).P := by
    unfold LV.P reflX reflY
    dsimp only
    rw [neg_mul_neg, neg_mul_neg]
  have ha : ang (reflX p) = -ang (reflY p) := by
    refine ang_opp rfl ?_ ?_
    · show p.y = - -p.y; ring
    · rcases hp with h | h
      · exact Or.inl h
      · exact Or.inr (neg_ne_zero.mpr h)
  rw [ht, hP, ha, neg_eq_neg_one_mul, mul_zpow, sg_of]
  ring

/-- inverted momentum in the decay: opposite helicities -/
theorem helVal_invert {J Lambda : ℤ} {v : DecayVtx} (hL : 2 ∣ v.L) (hJ : 2 ∣ J) {s1 s2 l1 l2 : ℤ} (h1 : 2 ∣ s1) (h2 : 2 ∣ s2)
    (hLa : Clebsch.Proj J Lambda) (M : ℝ) (p : LV) (hp : p.x ≠ 0 ∨ p.y ≠ 0) (M1 M2 : ℝ) :
    helVal J Lambda v M (invert p) M1 M2 s1 s2 l1 l2 =
      sg (v.L + s1 + s2) * helVal J Lambda v M p M1 M2 s1 s2 (-l1) (-l2) := by
  unfold helVal
  have e : -l1 - -l2 = -(l1 - l2) := by ring
  rw [e, ls_neg, ss_neg, P_invert, theta_invert p hp]
  by_cases hc : Clebsch.racah v.L 0 v.S (l1 - l2) J (l1 - l2) = 0
  · rw [hc]; push_cast; ring
  by_cases hc2 : Clebsch.racah s1 l1 s2 (-l2) v.S (l1 - l2) = 0
  · rw [hc2]; push_cast; ring
  obtain ⟨-, -, hpj, -, -, -, -, ⟨k, hk⟩⟩ := racah_ne hc
  have hS : 2 ∣ v.S := by omega
  have hLe := proj_even hJ hLa
  rw [DFunction.wignerD_pi_sub (proj_d hLa) (proj_d hpj) hJ, ang_opp (p := p) (q := invert p) rfl rfl hp,
    neg_eq_neg_one_mul (ang p), mul_zpow, sg_of, Complex.ofReal_mul, sg_cast]
  have hs : sg Lambda * sg (J + Lambda) = sg (v.L + s1 + s2) * (sg (v.L + v.S - J) * sg (s1 + s2 - v.S)) := by
    rw [← sg_add (by omega), ← sg_add (by omega), ← sg_add (by omega)]
    exact sg_congr (by omega)
  linear_combination ((Real.sqrt (v.L + 1) : ℂ) * (ang p ^ (Lambda / 2) *
    (DFunction.wignerD J Lambda (-(l1 - l2)) (theta p.vect) : ℂ)) * (Clebsch.racah v.L 0 v.S (l1 - l2) J (l1 - l2) : ℂ) *
    (Clebsch.racah s1 l1 s2 (-l2) v.S (l1 - l2) : ℂ) * (Phys.barrierFactor v.L p.P : ℂ) * v.massDep M M1 M2) * hs

/-! ### canonical amplitudes -/

/-- value of the canonical amplitude without the early returns -/
noncomputable def canVal (J M : ℤ) (v : DecayVtx) (M0 : ℝ) (p : LV) (M1 M2 : ℝ) (s1 s2 m1 m2 : ℤ) : ℂ :=
  (spinLoop v.L fun mL => (Clebsch.racah v.L mL v.S (m1 + m2) J M : ℂ) *
      ((Real.sqrt ((v.L + 1) / (4 * Real.pi)) : ℂ) * ang p ^ (mL / 2) * (DFunction.wignerD v.L mL 0 (theta p.vect) : ℂ)))
    * ((Real.sqrt (4 * Real.pi) : ℂ) * (Clebsch.racah s1 m1 s2 m2 v.S (m1 + m2) : ℂ)
      * (Phys.barrierFactor v.L p.P : ℂ) * v.massDep M0 M1 M2)

theorem can_eq {J P refl M : ℤ} {v : DecayVtx} (hL : 2 ∣ v.L) (parent : LV) (d1 d2 : Part) (m1 m2 : ℤ) :
    canTwoBody false J P refl M v parent d1 d2 m1 m2 =
      canVal J M v (mass parent) d1.lz (mass d1.lz) (mass d2.lz) d1.J d2.J m1 m2 := by
  unfold canTwoBody canVal
  dsimp only
  by_cases h1 : Clebsch.racah d1.J m1 d2.J m2 v.S (m1 + m2) = 0
  · rw [if_pos h1, h1]; push_cast; ring
  · rw [if_neg h1]
    congr 1
    refine spinLoop_congr fun mL hm => ?_
    have hme := proj_even hL hm
    simp only [Bool.false_eq_true, if_false]
    split_ifs with h2
    · rw [h2]; push_cast; ring
    · unfold sphericalHarmonic
      rw [exp_phi hme]

theorem can_refl (J P refl M : ℤ) (v : DecayVtx) (parent : LV) (d1 d2 : Part) (m1 m2 : ℤ) :
    canTwoBody true J P refl M v parent d1 d2 m1 m2 =
      reflComb (Phys.reflectivityFactor J P M refl) M
        fun m => canTwoBody false J P refl m v parent d1 d2 m1 m2 := by
  unfold canTwoBody reflComb
  dsimp only
  have guard : ∀ (c : ℝ) (y : ℂ), (if c = 0 then (0 : ℂ) else (c : ℂ) * y) = (c : ℂ) * y := by
    intro c y
    split_ifs with h
    · rw [h]; push_cast; ring
    · rfl
  simp only [guard]
  by_cases h1 : Clebsch.racah d1.J m1 d2.J m2 v.S (m1 + m2) = 0
  · rw [if_pos h1]
    split_ifs <;> simp
  · simp only [if_neg h1, if_true, Bool.false_eq_true, if_false]
    split_ifs with h3 h4
    · simp [spinLoop_zero]
    · rfl
    · have hs : (spinLoop v.L fun mL => ((1 / Real.sqrt 2 * (Clebsch.racah v.L mL v.S (m1 + m2) J M -
          (Phys.reflectivityFactor J P M refl : ℝ) * Clebsch.racah v.L mL v.S (m1 + m2) J (-M)) : ℝ) : ℂ) *
            sphericalHarmonic v.L mL (theta d1.lz.vect) (phi d1.lz.vect)) =
          ((1 / Real.sqrt 2 : ℝ) : ℂ) * ((spinLoop v.L fun mL => (Clebsch.racah v.L mL v.S (m1 + m2) J M : ℂ) *
            sphericalHarmonic v.L mL (theta d1.lz.vect) (phi d1.lz.vect)) -
            (Phys.reflectivityFactor J P M refl : ℂ) * spinLoop v.L fun mL =>
              (Clebsch.racah v.L mL v.S (m1 + m2) J (-M) : ℂ) *
            sphericalHarmonic v.L mL (theta d1.lz.vect) (phi d1.lz.vect)) := by
        rw [← spinLoop_mul, ← spinLoop_sub, ← spinLoop_mul]
        refine spinLoop_congr fun mL _ => ?_
        push_cast
        ring
      rw [hs]
      ring

/-- the sum over the projections of the orbital angular momentum, for opposite projections everywhere -/
theorem canVal_reflY {J M : ℤ} {v : DecayVtx} (hL : 2 ∣ v.L) (hL0 : 0 ≤ v.L) (hJ : 2 ∣ J) {s1 s2 m1 m2 : ℤ} (h1 : 2 ∣ s1) (h2 : 2 ∣ s2)
    (hM : 2 ∣ M) (M0 : ℝ) (p : LV) (M1 M2 : ℝ) :
    canVal J M v M0 (reflY p) M1 M2 s1 s2 m1 m2 =
      sg (v.L - J + s1 + s2) * sg (M - (m1 + m2)) * canVal J (-M) v M0 p M1 M2 s1 s2 (-m1) (-m2) := by
  unfold canVal
  have e : -m1 + -m2 = -(m1 + m2) := by ring
  rw [e, ss_neg, P_reflY, theta_reflY]
  by_cases hc2 : Clebsch.racah s1 m1 s2 m2 v.S (m1 + m2) = 0
  · rw [hc2]; push_cast; ring
  obtain ⟨hp1, hp2, -, -, -, -, -, ⟨k2, hk2⟩⟩ := racah_ne hc2
  have hm1 := proj_even h1 hp1
  have hm2 := proj_even h2 hp2
  have hS : 2 ∣ v.S := by omega
  have hsum : (spinLoop v.L fun mL => (Clebsch.racah v.L mL v.S (m1 + m2) J M : ℂ) *
      ((Real.sqrt ((v.L + 1) / (4 * Real.pi)) : ℂ) * ang (reflY p) ^ (mL / 2) *
        (DFunction.wignerD v.L mL 0 (theta p.vect) : ℂ))) =
      (sg (v.L + v.S - J) * sg (M - (m1 + m2))) * spinLoop v.L fun mL =>
        (Clebsch.racah v.L mL v.S (-(m1 + m2)) J (-M) : ℂ) *
      ((Real.sqrt ((v.L + 1) / (4 * Real.pi)) : ℂ) * ang p ^ (mL / 2) *
        (DFunction.wignerD v.L mL 0 (theta p.vect) : ℂ)) := by
    rw [← spinLoop_neg, ← spinLoop_mul]
    refine spinLoop_congr fun mL hm => ?_
    have hme := proj_even hL hm
    have hcg : (Clebsch.racah v.L (-mL) v.S (m1 + m2) J M : ℂ) =
        sg (v.L + v.S - J) * (Clebsch.racah v.L mL v.S (-(m1 + m2)) J (-M) : ℂ) := by
      have := Clebsch.racah_neg v.L mL v.S (-(m1 + m2)) J (-M)
      rw [neg_neg, neg_neg] at this
      rw [this, Complex.ofReal_mul, sg_cast]
    rw [hcg]
    by_cases hz : Clebsch.racah v.L mL v.S (-(m1 + m2)) J (-M) = 0
    · rw [hz]; push_cast; ring
    obtain ⟨-, -, -, hsum, -⟩ := racah_ne hz
    have hd := DFunction.wignerD_neg (n := 0) (proj_d hm) ⟨(v.L / 2).toNat, by omega, by omega⟩ (theta p.vect)
    rw [neg_zero] at hd
    have ha : ang (reflY p) ^ (-mL / 2) = ang p ^ (mL / 2) := by
      rw [ang_reflY, inv_zpow']
      congr 1
      omega
    rw [hd, ha, Complex.ofReal_mul, sg_cast, sub_zero]
    have : sg mL = sg (M - (m1 + m2)) := sg_congr (by omega)
    rw [this]
    ring
  rw [hsum]
  have hs : sg (v.L - J + s1 + s2) * (sg (s1 + s2 - v.S)) = sg (v.L + v.S - J) := by
    rw [← sg_add (by omega)]
    exact sg_congr (by omega)
  rw [← hs]
  ring

theorem wignerD_axis {l m : ℤ} (hl : 2 ∣ l) (hm : Clebsch.Proj l m) (h0 : m ≠ 0) {θ : ℝ}
    (hθ : Real.cos (θ / 2) = 0 ∨ Real.sin (θ / 2) = 0) : DFunction.wignerD l m 0 θ = 0 := by
  rw [DFunction.wignerD_finsum (proj_d hm)]
  have : ∀ k, DFunction.wTerm l m 0 (Real.cos (θ / 2)) (Real.sin (θ / 2)) k = 0 := by
    intro k
    by_contra hne
    have hne' := hne
    unfold DFunction.wTerm at hne
    obtain ⟨i, hi, hil⟩ := hm
    have h4 := right_ne_zero_of_mul hne
    have b := DFunction.rfac_ne (right_ne_zero_of_mul h4)
    have h3 := left_ne_zero_of_mul h4
    have c := DFunction.rfac_ne (right_ne_zero_of_mul h3)
    have h2 := left_ne_zero_of_mul h3
    have a := DFunction.rfac_ne (right_ne_zero_of_mul h2)
    have d := DFunction.rfac_ne (left_ne_zero_of_mul h2)
    have h5 := left_ne_zero_of_mul hne
    have hs := right_ne_zero_of_mul h5
    have hc := right_ne_zero_of_mul (left_ne_zero_of_mul h5)
    rcases hθ with h | h
    · rw [h] at hc
      have : l + (0 - m) / 2 - 2 * k = 0 := by
        by_contra hn
        exact hc (zero_zpow _ hn)
      omega
    · rw [h] at hs
      have : (m - 0) / 2 + 2 * k = 0 := by
        by_contra hn
        exact hs (zero_zpow _ hn)
      omega
  simp only [this, finsum_zero, mul_zero]

theorem theta_axis {p : LV} (hx : p.x = 0) (hy : p.y = 0) :
    Real.cos (theta p.vect / 2) = 0 ∨ Real.sin (theta p.vect / 2) = 0 := by
  unfold theta atan2 LV.vect
  dsimp only
  rw [hx, hy, mul_zero, add_zero, Real.sqrt_zero]
  have e : (⟨p.z, 0⟩ : ℂ) = (p.z : ℂ) := rfl
  rw [e]
  rcases le_or_gt 0 p.z with h | h
  · right
    rw [Complex.arg_ofReal_of_nonneg h]
    simp
  · left
    rw [Complex.arg_ofReal_of_neg h, Real.cos_pi_div_two]

/-- `Y_l^m(-n) = (-1)^l Y_l^m(n)` -/
theorem harmonic_invert {l m : ℤ} (hl : 2 ∣ l) (hm : Clebsch.Proj l m) (p : LV) (hp0 : p.x ≠ 0 ∨ p.y ≠ 0 ∨ p.z ≠ 0) :
    ang (invert p) ^ (m / 2) * (DFunction.wignerD l m 0 (theta (invert p).vect) : ℂ) =
      sg l * (ang p ^ (m / 2) * (DFunction.wignerD l m 0 (theta p.vect) : ℂ)) := by
  have hme := proj_even hl hm
  have hl0 : 0 ≤ l := by obtain ⟨k, h, h'⟩ := hm; omega
  have h00 : Clebsch.Proj l 0 := ⟨(l / 2).toNat, by omega, by omega⟩
  by_cases hp : p.x = 0 ∧ p.y = 0
  · obtain ⟨hx, hy⟩ := hp
    have hx' : (invert p).x = 0 := by show -p.x = 0; rw [hx, neg_zero]
    have hy' : (invert p).y = 0 := by show -p.y = 0; rw [hy, neg_zero]
    rw [ang_zero hx hy, ang_zero hx' hy']
    by_cases h0 : m = 0
    · subst h0
      have hz0 : p.z ≠ 0 := by
        rcases hp0 with h | h | h
        · exact absurd hx h
        · exact absurd hy h
        · exact h
      have hz : theta (invert p).vect = Real.pi - theta p.vect := by
        unfold theta atan2 LV.vect invert
        dsimp only
        rw [hx, hy, neg_zero, mul_zero, add_zero, Real.sqrt_zero]
        have e : ∀ r : ℝ, (⟨r, 0⟩ : ℂ) = (r : ℂ) := fun _ => rfl
        rw [e, e]
        rcases lt_or_gt_of_ne hz0 with h | h
        · rw [Complex.arg_ofReal_of_neg h, Complex.arg_ofReal_of_nonneg (by linarith)]; ring
        · rw [Complex.arg_ofReal_of_nonneg h.le, Complex.arg_ofReal_of_neg (by linarith)]; ring
      rw [hz, DFunction.wignerD_pi_sub (proj_d hm) (proj_d h00) hl, neg_zero, Complex.ofReal_mul, sg_cast, add_zero]
      ring
    · rw [wignerD_axis hl hm h0 (theta_axis hx hy), wignerD_axis hl hm h0 (theta_axis hx' hy')]
      push_cast
      ring
  · have hp' : p.x ≠ 0 ∨ p.y ≠ 0 := by
      by_contra hc
      push Not at hc
      exact hp hc
    rw [theta_invert p hp', DFunction.wignerD_pi_sub (proj_d hm) (proj_d h00) hl, neg_zero,
      ang_opp (p := p) (q := invert p) rfl rfl hp', neg_eq_neg_one_mul (ang p), mul_zpow, sg_of, Complex.ofReal_mul, sg_cast]
    have : sg m * sg (l + m) = sg l := by
      rw [← sg_add (by omega)]
      exact sg_congr (by omega)
    rw [← this]
    ring

theorem barrier_zero {L : ℤ} (hL : 2 ∣ L) (h0 : L ≠ 0) {q : ℝ} (hq : q = 0) : Phys.barrierFactor L q = 0 := by
  unfold Phys.barrierFactor Phys.barrierFactorSquared
  rw [hq]
  have : (0 * 0 : ℝ) / (0.1973 * 0.1973) = 0 := by simp
  rw [this]
  unfold Phys.barrierFactorSquaredZ
  rw [if_neg h0]
  split_ifs <;> simp

/-- inverted momentum in the canonical amplitude -/
theorem canVal_invert {J M : ℤ} {v : DecayVtx} (hL : 2 ∣ v.L) {s1 s2 m1 m2 : ℤ} (M0 : ℝ) (p : LV) (M1 M2 : ℝ) :
    canVal J M v M0 (invert p) M1 M2 s1 s2 m1 m2 = sg v.L * canVal J M v M0 p M1 M2 s1 s2 m1 m2 := by
  unfold canVal
  rw [P_invert]
  by_cases hp0 : p.x ≠ 0 ∨ p.y ≠ 0 ∨ p.z ≠ 0
  · rw [← mul_assoc (sg v.L), ← spinLoop_mul]
    congr 1
    refine spinLoop_congr fun mL hm => ?_
    have h := harmonic_invert hL hm p hp0
    linear_combination ((Clebsch.racah v.L mL v.S (m1 + m2) J M : ℂ) * (Real.sqrt ((v.L + 1) / (4 * Real.pi)) : ℂ)) * h
  · push Not at hp0
    obtain ⟨hx, hy, hz⟩ := hp0
    have hP : p.P = 0 := by
      unfold LV.P; rw [hx, hy, hz]; simp
    by_cases h0 : v.L = 0
    · have hi : invert p = p := by
        unfold invert; ext <;> simp [hx, hy, hz]
      have : sg v.L = 1 := by rw [h0]; exact sg_four 0 (by norm_num)
      rw [hi, this, one_mul]
    · rw [barrier_zero hL h0 hP]
      push_cast
      ring

end Rpwa.Amp
