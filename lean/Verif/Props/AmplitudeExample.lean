import Verif.Props.AmplitudeFrames

/-!
# A decay and an event that meet the hypotheses of C54

`a1(1260) → rho(770) pi` in S-wave, `rho → pi pi` in P-wave, with a massless beam along z.
-/

namespace Rpwa.Amp

open Rpwa.Gen Rpwa.Amp.Spec

/-- vertex without mass dependence -/
def flatVtx (L S : ℤ) : DecayVtx := ⟨L, S, fun _ _ _ => 1⟩

/-- `1++ 0+ [rho(770) pi, S-wave]` -/
def exX : XDecay where
  J := 2
  P := 1
  refl := 1
  M := 0
  v := flatVtx 0 2
  d1 := .isobar 2 (-1) ⟨0, 0, 0, 0⟩ (flatVtx 2 0) (.fs 0 (-1) 0 ⟨0, 0, 0, 0⟩) (.fs 0 (-1) 1 ⟨0, 0, 0, 0⟩)
  d2 := .fs 0 (-1) 2 ⟨0, 0, 0, 0⟩

/-- the same state decaying into two pions -/
def exTwo : XDecay where
  J := 4
  P := 1
  refl := -1
  M := 2
  v := flatVtx 4 0
  d1 := .fs 0 (-1) 0 ⟨0, 0, 0, 0⟩
  d2 := .fs 0 (-1) 1 ⟨0, 0, 0, 0⟩

def exBeam : LV := ⟨0, 0, 190, 190⟩
def exMom : LV := ⟨2, 3, 6, 25⟩

/-- momenta in the Gottfried-Jackson frame -/
def exGJ : ℕ → LV
  | 0 => ⟨1, 1, 1, 6⟩
  | 1 => ⟨2, -1, 3, 7⟩
  | _ => ⟨-3, 0, -4, 11⟩

noncomputable def exEv (i : ℕ) : LV := inverse (gjTransform exBeam exMom) (exGJ i)

theorem exX_mesonic : MesonicX exX where
  J_even := by decide
  L_even := by decide
  L_nonneg := by decide
  M_even := by decide
  M_nonneg := by decide
  M_le := by decide
  P_sign := Or.inl rfl
  refl_sign := Or.inl rfl
  left := ⟨by decide, by decide, by decide, rfl, rfl⟩
  right := rfl

theorem exX_parity : ParityConservedX exX where
  top := by decide
  left := ⟨by decide, Or.inr rfl, Or.inr rfl⟩
  right := Or.inr rfl

theorem exMom_m2 : exMom.m2 = 576 := by unfold LV.m2 exMom; norm_num

theorem exFrame : Frame (gjTransform exBeam exMom) ∧ gjTransform exBeam exMom exMom = ⟨0, 0, 0, 24⟩ := by
  have h := gj_rest (beam := exBeam) (X := exMom) (by rw [exMom_m2]; norm_num) (by unfold exMom; norm_num)
  rw [exMom_m2] at h
  have : Real.sqrt 576 = 24 := by
    rw [show (576 : ℝ) = 24 ^ 2 by norm_num]
    exact Real.sqrt_sq (by norm_num)
  rw [this] at h
  exact h

theorem exIsGJ : IsGJ exBeam exMom (gjTransform exBeam exMom) :=
  gj_beam_along_z rfl rfl (by unfold exBeam; norm_num) (by unfold exBeam; norm_num) (by rw [exMom_m2]; norm_num)
    (by unfold exMom; norm_num) (Or.inl (by unfold exMom; norm_num))

theorem lv_add (p q : LV) : p + q = ⟨p.x + q.x, p.y + q.y, p.z + q.z, p.t + q.t⟩ := rfl

theorem exT (i : ℕ) : gjTransform exBeam exMom (exEv i) = exGJ i := exFrame.1.apply_inverse _

theorem exT01 : gjTransform exBeam exMom (exEv 0 + exEv 1) = ⟨3, 0, 4, 13⟩ := by
  rw [exFrame.1.map_add, exT, exT, lv_add]
  unfold exGJ
  ext <;> norm_num

theorem exTotal : total exEv exX = exMom := by
  refine exFrame.1.injective ?_
  show gjTransform exBeam exMom (exEv 0 + exEv 1 + exEv 2) = _
  rw [exFrame.1.map_add, exT01, exT, exFrame.2, lv_add]
  unfold exGJ
  ext <;> norm_num

theorem exPhysical : Physical exX exEv where
  mass := by rw [exTotal, exMom_m2]; norm_num
  energy := by rw [exTotal]; unfold exMom; norm_num

/-- the component along the normal is visible in the helicity frame -/
theorem hf_offAxis {d q : LV} (hm : 0 < d.m2) (ht : 0 < d.t) (hd : d.x ≠ 0 ∨ d.y ≠ 0) (hq : q.y * d.x - q.x * d.y ≠ 0) :
    (hfTransform d q).x ≠ 0 ∨ (hfTransform d q).y ≠ 0 := by
  obtain ⟨f, -, -, ⟨n, hn, en⟩⟩ := hf_frame hm ht hd
  right
  intro h
  have e := f.keeps_prod q ⟨-d.y, d.x, 0, 0⟩
  rw [en] at e
  unfold prod at e
  dsimp only at e
  rw [h] at e
  exact hq (by linarith)

theorem exGeneric : Generic exX exBeam exEv := by
  refine ⟨exPhysical, ?_, ?_⟩
  · unfold inHelicityFrames
    rw [exTotal]
    show OffAxis (.isobar 2 (-1) (gjTransform exBeam exMom (exEv 0 + exEv 1)) (flatVtx 2 0)
      (.fs 0 (-1) 0 (hfTransform (gjTransform exBeam exMom (exEv 0 + exEv 1)) (gjTransform exBeam exMom (exEv 0))))
      (.fs 0 (-1) 1 (hfTransform (gjTransform exBeam exMom (exEv 0 + exEv 1)) (gjTransform exBeam exMom (exEv 1)))))
    rw [exT01, exT, exT]
    have hm : 0 < LV.m2 ⟨3, 0, 4, 13⟩ := by unfold LV.m2; norm_num
    have ht : 0 < LV.t ⟨3, 0, 4, 13⟩ := by norm_num
    have hd : LV.x ⟨3, 0, 4, 13⟩ ≠ 0 ∨ LV.y ⟨3, 0, 4, 13⟩ ≠ 0 := Or.inl (by norm_num)
    exact ⟨hm, ht, hd, hf_offAxis hm ht hd (by unfold exGJ; norm_num), hf_offAxis hm ht hd (by unfold exGJ; norm_num)⟩
  · unfold inHelicityFrames
    rw [exTotal]
    show OffAxis (.fs 0 (-1) 2 (gjTransform exBeam exMom (exEv 2)))
    rw [exT]
    exact Or.inl (by unfold exGJ; norm_num)

/-- reflection and inversion of the event, both formalisms -/
example (b : Bool) :
    symTermAmp helicity { spaceInversion := b, reflection := true } exX exBeam exEv =
      symTermAmp helicity { spaceInversion := b } exX exBeam exEv ∧
    symTermAmp canonical { spaceInversion := b, reflection := true } exX exBeam exEv =
      symTermAmp canonical { spaceInversion := b } exX exBeam exEv := by
  have e : -((exX.refl : ℂ) * fsParityX exX) = 1 := by
    have : fsParityX exX = -1 := by decide
    rw [this]
    unfold exX
    norm_num
  have h1 := helicity_reflection exX_mesonic exX_parity exBeam exEv b exGeneric
  have h2 := canonical_reflection exX_mesonic exX_parity exBeam exEv b exPhysical
  rw [e, one_mul] at h1 h2
  exact ⟨h1, h2⟩

example (c : Bool) :
    symTermAmp helicity { reflBasis := c, spaceInversion := true } exX exBeam exEv =
      -symTermAmp helicity { reflBasis := c } exX exBeam exEv := by
  have e : ((exX.P : ℂ) * fsParityX exX) = -1 := by
    have : fsParityX exX = -1 := by decide
    rw [this]
    unfold exX
    norm_num
  have h1 := helicity_inversion exX_mesonic exX_parity exBeam exEv c exGeneric
  rw [e] at h1
  rw [h1]; ring

/-- rotations about the beam -/
example (a : ℝ) (sw : Switches) :
    symTermAmp helicity sw exX (rotZ a exBeam) (fun i => rotZ a (exEv i)) = symTermAmp helicity sw exX exBeam exEv := by
  have hb : rotZ a exBeam = exBeam := by unfold rotZ exBeam; ext <;> dsimp only <;> ring
  refine amplitude_rotated (Or.inl rfl) (frame_rotZ a) (by unfold rotZ; ext <;> dsimp only <;> ring) exPhysical ?_ ?_ sw
  · rw [exTotal]; exact exIsGJ
  · rw [exTotal, hb]
    have hs := Real.sin_sq_add_cos_sq a
    refine gj_beam_along_z rfl rfl (by unfold exBeam; norm_num) (by unfold exBeam; norm_num)
      (by rw [(frame_rotZ a).m2, exMom_m2]; norm_num) (by show (0 : ℝ) < 25; norm_num) ?_
    by_contra hc
    push Not at hc
    obtain ⟨h1, h2⟩ := hc
    unfold rotZ exMom at h1 h2
    dsimp only at h1 h2
    nlinarith

/-- two pions in D-wave -/
example (sw : Switches) (beam : LV) (ev : ℕ → LV) : symTermAmp helicity sw exTwo beam ev = symTermAmp canonical sw exTwo beam ev :=
  formalisms_agree (X := exTwo) ⟨by decide, by decide, by decide, by decide, by decide, by decide, Or.inl rfl, Or.inr rfl, rfl, rfl⟩
    rfl rfl sw beam ev

/-- `f0 → pi pi` -/
def exScalar : XDecay where
  J := 0
  P := 1
  refl := -1
  M := 0
  v := flatVtx 0 0
  d1 := .fs 0 (-1) 0 ⟨0, 0, 0, 0⟩
  d2 := .fs 0 (-1) 1 ⟨0, 0, 0, 0⟩

/-- amplitudes are not zero in general: a spinless X has amplitude one -/
theorem scalar_amplitude (beam : LV) (ev : ℕ → LV) : symTermAmp helicity {} exScalar beam ev = 1 := by
  have hw : ∀ θ, DFunction.wignerD 0 0 0 θ = 1 := by
    intro θ
    unfold DFunction.wignerD DFunction.rfac DFunction.fac
    simp
  have hr : Clebsch.racah 0 0 0 0 0 0 = 1 := racah_zero_right (j := 0) (m := 0) ⟨0, by norm_num, by norm_num⟩
  show (spinLoop 0 fun l1 => spinLoop 0 fun l2 => helTwoBody true 0 1 (-1) 0 (flatVtx 0 0) _
    (.fs 0 (-1) 0 (gjTransform beam _ (ev 0))) (.fs 0 (-1) 1 (gjTransform beam _ (ev 1))) l1 l2 * 1 * 1) = 1
  rw [spinLoop_none, spinLoop_none, mul_one, mul_one, hel_refl]
  unfold reflComb
  have hf : Phys.reflectivityFactor 0 1 0 (-1) = -1 := by decide
  rw [if_pos rfl, hf, if_neg (by decide)]
  beta_reduce
  rw [hel_eq (dvd_zero 2)]
  unfold helVal
  show (Real.sqrt (((0 : ℤ) : ℝ) + 1) : ℂ) * (ang _ ^ ((0 : ℤ) / 2) * (DFunction.wignerD 0 0 0 _ : ℂ)) *
    (Clebsch.racah 0 0 0 0 0 0 : ℂ) * (Clebsch.racah 0 0 0 0 0 0 : ℂ) * (Phys.barrierFactor 0 _ : ℂ) * 1 = 1
  rw [hw, hr]
  have hb : ∀ q, Phys.barrierFactor 0 q = 1 := by
    intro q
    unfold Phys.barrierFactor Phys.barrierFactorSquared Phys.barrierFactorSquaredZ
    simp
  rw [hb]
  simp

end Rpwa.Amp
