import Verif.Lemmas.Frames

/-!
# C53: Gottfried-Jackson and helicity frames
-/

namespace Rpwa.Amp

open Rpwa.Gen Spec

/-! ## consequences of the definition of a frame -/

/-- `c p` -/
def smul (c : ℝ) (p : LV) : LV := ⟨c * p.x, c * p.y, c * p.z, c * p.t⟩

theorem prod_ext {p q : LV} (h : ∀ r, prod p r = prod q r) : p = q := by
  have hx := h ⟨1, 0, 0, 0⟩
  have hy := h ⟨0, 1, 0, 0⟩
  have hz := h ⟨0, 0, 1, 0⟩
  have ht := h ⟨0, 0, 0, 1⟩
  unfold prod at hx hy hz ht
  dsimp only at hx hy hz ht
  ext <;> linarith

theorem Spec.Frame.ext_prod {L : LV → LV} (hL : Frame L) {p q : LV} (h : ∀ r, prod p (L r) = prod q (L r)) : p = q := by
  refine prod_ext fun r => ?_
  obtain ⟨s, rfl⟩ := hL.onto r
  exact h s

theorem Spec.Frame.map_smul {L : LV → LV} (hL : Frame L) (c : ℝ) (p : LV) : L (smul c p) = smul c (L p) := by
  refine hL.ext_prod fun r => ?_
  have h1 := hL.keeps_prod (smul c p) r
  have h2 := hL.keeps_prod p r
  rw [h1]
  unfold smul prod at *
  dsimp only
  linear_combination -c * h2

theorem Spec.Frame.map_add {L : LV → LV} (hL : Frame L) (p q : LV) : L (p + q) = L p + L q := by
  refine hL.ext_prod fun r => ?_
  have h1 := hL.keeps_prod (p + q) r
  have h2 := hL.keeps_prod p r
  have h3 := hL.keeps_prod q r
  rw [h1]
  unfold prod at *
  simp only [add_x, add_y, add_z, add_t] at *
  linear_combination -h2 - h3

theorem Spec.Frame.m2 {L : LV → LV} (hL : Frame L) (p : LV) : (L p).m2 = p.m2 := hL.keeps_prod p p

/-- The Gottfried-Jackson frame is unique: the definition fixes every component of every momentum. -/
theorem gj_unique {beam X : LV} {L K : LV → LV} (hL : IsGJ beam X L) (hK : IsGJ beam X K) (p : LV) : L p = K p := by
  obtain ⟨fL, ⟨m, hm, eX⟩, ⟨k, e, hk, eb⟩, ⟨n, hn, en⟩⟩ := hL
  obtain ⟨fK, ⟨m', hm', eX'⟩, ⟨k', e', hk', eb'⟩, ⟨n', hn', en'⟩⟩ := hK
  have a1 := (fL.keeps_prod X X).trans (fK.keeps_prod X X).symm
  have a2 := (fL.keeps_prod beam X).trans (fK.keeps_prod beam X).symm
  have a3 := (fL.keeps_prod beam beam).trans (fK.keeps_prod beam beam).symm
  have a4 := (fL.keeps_prod (normal beam X) (normal beam X)).trans (fK.keeps_prod (normal beam X) (normal beam X)).symm
  have c1 := (fL.keeps_prod p X).trans (fK.keeps_prod p X).symm
  have c2 := (fL.keeps_prod p beam).trans (fK.keeps_prod p beam).symm
  have c3 := (fL.keeps_prod p (normal beam X)).trans (fK.keeps_prod p (normal beam X)).symm
  have c4 := (fL.keeps_vol p X beam (normal beam X)).trans (fK.keeps_vol p X beam (normal beam X)).symm
  rw [vol_eq, vol_eq] at c4
  rw [eX, eX'] at a1 a2 c1 c4
  rw [eb, eb'] at a2 a3 c2 c4
  rw [en, en'] at a4 c3 c4
  unfold prod at a1 a2 a3 a4 c1 c2 c3
  dsimp only at a1 a2 a3 a4 c1 c2 c3 c4
  have hmm : m = m' := (pow_left_inj₀ hm.le hm'.le two_ne_zero).mp (by linear_combination a1)
  have hnn : n = n' := (pow_left_inj₀ hn.le hn'.le two_ne_zero).mp (by linear_combination -a4)
  subst hmm hnn
  have hee : e = e' := mul_right_cancel₀ hm.ne' (by linear_combination a2)
  subst hee
  have hkk : k = k' := (pow_left_inj₀ hk.le hk'.le two_ne_zero).mp (by linear_combination -a3)
  subst hkk
  have ht : (L p).t = (K p).t := mul_right_cancel₀ hm.ne' (by linear_combination c1)
  have hy : (L p).y = (K p).y := mul_right_cancel₀ hn.ne' (by linear_combination -c3)
  have hz : (L p).z = (K p).z := mul_right_cancel₀ hk.ne' (by linear_combination -c2 + e * ht)
  have hx : (L p).x = (K p).x := by
    have : (m * k * n) ≠ 0 := by positivity
    refine mul_right_cancel₀ this ?_
    linear_combination -c4
  ext
  · exact hx
  · exact hy
  · exact hz
  · exact ht

/-! ## the code's transformation into the Gottfried-Jackson frame -/

/-- the beam after the first rotation and the boost of `gjTransform` -/
noncomputable def beamBoosted (beam X : LV) : LV :=
  (alignY (cross beam.vect X.vect) beam).boost (alignY (cross beam.vect X.vect) X).boostVector.neg

theorem cross_mag_pos {beam X : LV} (h : cross beam.vect X.vect ≠ ⟨0, 0, 0⟩) : 0 < mag (cross beam.vect X.vect) := by
  rcases (mag_nonneg (cross beam.vect X.vect)).lt_or_eq with h0 | h0
  · exact h0
  · exfalso
    apply h
    have hs := mag_sq (cross beam.vect X.vect)
    rw [← h0] at hs
    have hx := mul_self_nonneg (cross beam.vect X.vect).x
    have hy := mul_self_nonneg (cross beam.vect X.vect).y
    have hz := mul_self_nonneg (cross beam.vect X.vect).z
    ext
    · exact mul_self_eq_zero.mp (by linarith)
    · exact mul_self_eq_zero.mp (by linarith)
    · exact mul_self_eq_zero.mp (by linarith)

/-- facts on the intermediate vectors -/
theorem gj_steps {beam X : LV} (hm : 0 < X.m2) (ht : 0 < X.t) (hc : cross beam.vect X.vect ≠ ⟨0, 0, 0⟩) :
    let A := alignY (cross beam.vect X.vect)
    let v := (A X).boostVector.neg
    b2 v < 1 ∧ v.y = 0 ∧ (A X).boost v = ⟨0, 0, 0, Real.sqrt X.m2⟩ ∧ (beamBoosted beam X).y = 0 ∧
      beamBoosted beam X ≠ ⟨0, 0, 0, (beamBoosted beam X).t⟩ ∧
      ∀ p, gjTransform beam X p = rotY (-signum (beamBoosted beam X).x * theta (beamBoosted beam X).vect) ((A p).boost v) := by
  intro A v
  have hpos := cross_mag_pos hc
  have fA : Frame A := frame_alignY _
  have hm1 : 0 < (A X).m2 := by rw [fA.m2]; exact hm
  have ht1 : 0 < (A X).t := ht
  have hb : b2 v < 1 := by
    show b2 (A X).boostVector.neg < 1
    rw [b2_neg]
    exact (b2_boostVector hm1).1
  have hXy : (A X).y = 0 := alignY_orth hpos (by
    unfold cross LV.vect; dsimp only; ring)
  have hby : (A beam).y = 0 := alignY_orth hpos (by
    unfold cross LV.vect; dsimp only; ring)
  have hvy : v.y = 0 := by
    show -((A X).y / (A X).t) = 0
    rw [hXy]; simp
  have hrest : (A X).boost v = ⟨0, 0, 0, Real.sqrt X.m2⟩ :=
    boost_to_rest (Real.sqrt_pos.mpr hm) (by rw [fA.m2, Real.sq_sqrt hm.le]) ht1
  have hne : beam ≠ X := by
    rintro rfl
    apply hc
    unfold cross
    ext <;> dsimp only <;> ring
  refine ⟨hb, hvy, hrest, ?_, ?_, ?_⟩
  · show ((A beam).boost v).y = 0
    rw [boost_y hb hvy]
    exact hby
  · intro h0
    apply hc
    have fB : Frame (LV.boost v) := frame_boost hb
    obtain ⟨c, hcc⟩ : ∃ c, beamBoosted beam X = smul c ((A X).boost v) := by
      refine ⟨(beamBoosted beam X).t / Real.sqrt X.m2, ?_⟩
      rw [hrest, h0]
      unfold smul
      have : Real.sqrt X.m2 ≠ 0 := (Real.sqrt_pos.mpr hm).ne'
      ext <;> dsimp only
      · ring
      · ring
      · ring
      · field_simp
    have hcc' : (A beam).boost v = smul c ((A X).boost v) := hcc
    rw [← fB.map_smul] at hcc'
    have inj : ∀ p q : LV, p.boost v = q.boost v → p = q := by
      intro p q h
      refine prod_ext fun r => ?_
      rw [← fB.keeps_prod p r, ← fB.keeps_prod q r, h]
    have h1 := inj _ _ hcc'
    rw [← fA.map_smul] at h1
    have h2 : beam = smul c X := by
      refine prod_ext fun r => ?_
      rw [← fA.keeps_prod beam r, ← fA.keeps_prod (smul c X) r, h1]
    rw [h2]
    unfold smul LV.vect cross
    ext <;> dsimp only <;> ring
  · intro p
    exact if_neg hne

/-- C53, Gottfried-Jackson frame: for a moving or resting massive `X` and a beam that is not parallel to it, the
transformation of the code leads to the Gottfried-Jackson frame — unless the intermediate beam direction happens to be
exactly the negative z-axis (see `gj_opposite`). -/
theorem gj_frame {beam X : LV} (hm : 0 < X.m2) (ht : 0 < X.t) (hc : cross beam.vect X.vect ≠ ⟨0, 0, 0⟩)
    (hb : (beamBoosted beam X).x ≠ 0 ∨ 0 ≤ (beamBoosted beam X).z) : IsGJ beam X (gjTransform beam X) := by
  obtain ⟨h1, h2, h3, h4, h5, h6⟩ := gj_steps hm ht hc
  have e : gjTransform beam X = fun p => rotY (-signum (beamBoosted beam X).x * theta (beamBoosted beam X).vect)
      ((alignY (cross beam.vect X.vect) p).boost (alignY (cross beam.vect X.vect) X).boostVector.neg) := funext h6
  rw [e]
  have hpos := cross_mag_pos hc
  refine ⟨(frame_rotY _).comp ((frame_boost h1).comp (frame_alignY _)), ⟨_, Real.sqrt_pos.mpr hm, ?_⟩,
    ⟨mag (beamBoosted beam X).vect, (beamBoosted beam X).t, ?_, ?_⟩, ⟨mag (cross beam.vect X.vect), hpos, ?_⟩⟩
  · show rotY _ ((alignY _ X).boost _) = _
    rw [h3, rotY_rest]
  · rcases (mag_nonneg (beamBoosted beam X).vect).lt_or_eq with h0 | h0
    · exact h0
    · exfalso
      apply h5
      have hs := mag_sq (beamBoosted beam X).vect
      rw [← h0] at hs
      have hx := mul_self_nonneg (beamBoosted beam X).vect.x
      have hy := mul_self_nonneg (beamBoosted beam X).vect.y
      have hz := mul_self_nonneg (beamBoosted beam X).vect.z
      ext
      · exact mul_self_eq_zero.mp (show (beamBoosted beam X).vect.x * (beamBoosted beam X).vect.x = 0 by linarith)
      · exact h4
      · exact mul_self_eq_zero.mp (show (beamBoosted beam X).vect.z * (beamBoosted beam X).vect.z = 0 by linarith)
      · rfl
  · exact rotY_toZ h4 hb
  · show rotY _ ((alignY _ (normal beam X)).boost _) = _
    have : normal beam X = ⟨(cross beam.vect X.vect).x, (cross beam.vect X.vect).y, (cross beam.vect X.vect).z, 0⟩ := rfl
    rw [this, alignY_axis, boost_fix_y h1 h2, rotY_fix_y]

/-- A change of the laboratory frame that keeps the direction of the normal of the production plane — every rotation of
the whole event, see `gj_rotated` — does not change the momenta in the Gottfried-Jackson frame. -/
theorem gj_invariant {beam X : LV} {R : LV → LV} (hR : Frame R) {c : ℝ} (hcp : 0 < c)
    (hn : R (normal beam X) = smul c (normal (R beam) (R X)))
    (h : IsGJ beam X (gjTransform beam X)) (h' : IsGJ (R beam) (R X) (gjTransform (R beam) (R X))) (p : LV) :
    gjTransform (R beam) (R X) (R p) = gjTransform beam X p := by
  refine gj_unique (L := fun q => gjTransform (R beam) (R X) (R q)) ⟨h'.frame.comp hR, h'.rest, h'.beam_z, ?_⟩ h p
  obtain ⟨n, hn0, en⟩ := h'.normal_y
  refine ⟨c * n, mul_pos hcp hn0, ?_⟩
  show gjTransform (R beam) (R X) (R (normal beam X)) = _
  rw [hn, h'.frame.map_smul, en]
  unfold smul
  ext <;> dsimp only <;> ring

/-- the normal is the four-vector dual to beam, `X` and the time axis -/
theorem normal_dual (beam X a : LV) : prod a (normal beam X) = -vol a beam X ⟨0, 0, 0, 1⟩ := by
  rw [vol_eq]
  unfold prod normal
  dsimp only
  ring

/-- C53, orientation of the laboratory: rotating the whole event leaves all momenta in the Gottfried-Jackson frame
unchanged. -/
theorem gj_rotated {beam X : LV} {R : LV → LV} (hR : Frame R) (htime : R ⟨0, 0, 0, 1⟩ = ⟨0, 0, 0, 1⟩)
    (h : IsGJ beam X (gjTransform beam X)) (h' : IsGJ (R beam) (R X) (gjTransform (R beam) (R X))) (p : LV) :
    gjTransform (R beam) (R X) (R p) = gjTransform beam X p := by
  refine gj_invariant hR one_pos ?_ h h' p
  have e : smul 1 (normal (R beam) (R X)) = normal (R beam) (R X) := by
    unfold smul; ext <;> dsimp only <;> ring
  rw [e]
  refine hR.ext_prod fun r => ?_
  have h1 : prod (R (normal beam X)) (R r) = prod r (normal beam X) := by
    rw [hR.keeps_prod]; unfold prod; ring
  have h2 : prod (normal (R beam) (R X)) (R r) = prod (R r) (normal (R beam) (R X)) := by unfold prod; ring
  rw [h1, h2, normal_dual, normal_dual]
  have := hR.keeps_vol r beam X ⟨0, 0, 0, 1⟩
  rw [htime] at this
  rw [this]

/-- In the excluded case the code leaves the beam on the negative z-axis. -/
theorem gj_opposite {beam X : LV} (hm : 0 < X.m2) (ht : 0 < X.t) (hc : cross beam.vect X.vect ≠ ⟨0, 0, 0⟩)
    (hx : (beamBoosted beam X).x = 0) (hz : (beamBoosted beam X).z < 0) :
    ∃ k e, 0 < k ∧ gjTransform beam X beam = ⟨0, 0, -k, e⟩ := by
  obtain ⟨h1, h2, h3, h4, h5, h6⟩ := gj_steps hm ht hc
  refine ⟨-(beamBoosted beam X).z, (beamBoosted beam X).t, by linarith, ?_⟩
  rw [h6]
  have hs : signum (beamBoosted beam X).x = 0 := by
    unfold signum
    rw [hx, if_neg (lt_irrefl _), if_neg (lt_irrefl _)]
  rw [hs, neg_zero, zero_mul]
  show rotY 0 (beamBoosted beam X) = _
  unfold rotY
  rw [Real.sin_zero, Real.cos_zero, hx]
  ext <;> dsimp only
  · ring
  · exact h4
  · ring

theorem alignY_trivial (n : ℝ) (hn : 0 < n) (p : LV) : alignY ⟨0, n, 0⟩ p = p := by
  have hphi : phi ⟨0, n, 0⟩ = Real.pi / 2 := by
    have h1 := perp_cos ⟨0, n, 0⟩
    have h2 := perp_sin ⟨0, n, 0⟩
    have e : perp ⟨0, n, 0⟩ = n := by
      unfold perp
      dsimp only
      rw [mul_zero, zero_add, Real.sqrt_mul_self hn.le]
    unfold phi atan2
    dsimp only
    have : (⟨0, n⟩ : ℂ) = (n : ℂ) * Complex.I := by
      apply Complex.ext <;> simp
    rw [this, Complex.arg_real_mul _ hn, Complex.arg_I]
  have hth : theta ⟨0, n, 0⟩ = Real.pi / 2 := by
    unfold theta atan2
    dsimp only
    have e : Real.sqrt (0 * 0 + n * n) = n := by rw [mul_zero, zero_add, Real.sqrt_mul_self hn.le]
    have : (⟨0, n⟩ : ℂ) = (n : ℂ) * Complex.I := by
      apply Complex.ext <;> simp
    rw [e, this, Complex.arg_real_mul _ hn, Complex.arg_I]
  unfold alignY
  rw [hphi, hth, sub_self]
  unfold rotX rotZ
  rw [Real.sin_zero, Real.cos_zero]
  ext <;> dsimp only <;> ring

/-- The excluded case occurs: a massless beam of 5 GeV in the direction (-3, 0, -4) and a system of mass 4 GeV. -/
theorem gj_opposite_occurs : ∃ beam X : LV, 0 < X.m2 ∧ 0 < X.t ∧ 0 ≤ beam.m2 ∧ 0 < beam.t ∧
    cross beam.vect X.vect ≠ ⟨0, 0, 0⟩ ∧ ∃ k e, 0 < k ∧ gjTransform beam X beam = ⟨0, 0, -k, e⟩ := by
  have hcr : cross (LV.vect ⟨-3, 0, -4, 5⟩) (LV.vect ⟨-3, 0, 0, 5⟩) = ⟨0, 12, 0⟩ := by
    unfold cross LV.vect; ext <;> norm_num
  have hc : cross (LV.vect ⟨-3, 0, -4, 5⟩) (LV.vect ⟨-3, 0, 0, 5⟩) ≠ ⟨0, 0, 0⟩ := by
    rw [hcr]
    intro h
    have := congrArg V3.y h
    norm_num at this
  have hm : 0 < LV.m2 ⟨-3, 0, 0, 5⟩ := by unfold LV.m2; norm_num
  have hbb : beamBoosted ⟨-3, 0, -4, 5⟩ ⟨-3, 0, 0, 5⟩ = ⟨0, 0, -4, 4⟩ := by
    unfold beamBoosted
    rw [hcr, alignY_trivial 12 (by norm_num), alignY_trivial 12 (by norm_num)]
    have hb : b2 ⟨3 / 5, 0, 0⟩ < 1 := by
      unfold b2; norm_num
    obtain ⟨g, g2, hg, h1, _, h3, h4⟩ := boost_eq hb
    have hv : (LV.boostVector ⟨-3, 0, 0, 5⟩).neg = ⟨3 / 5, 0, 0⟩ := by
      unfold LV.boostVector V3.neg; ext <;> norm_num
    rw [hv]
    have hg54 : g = 5 / 4 := by
      unfold b2 at h1
      norm_num at h1
      have : g ^ 2 = (5 / 4) ^ 2 := by linarith
      exact (pow_left_inj₀ hg.le (by norm_num) two_ne_zero).mp this
    have hg2 : g2 * (9 / 25) = 1 / 4 := by
      unfold b2 at h3
      rw [hg54] at h3
      norm_num at h3
      linarith
    rw [h4, hg54]
    ext <;> dsimp only
    · linear_combination -3 * hg2
    · ring
    · ring
    · ring
  refine ⟨⟨-3, 0, -4, 5⟩, ⟨-3, 0, 0, 5⟩, hm, by norm_num, by unfold LV.m2; norm_num, by norm_num, hc, ?_⟩
  refine gj_opposite hm (by norm_num) hc ?_ ?_
  · rw [hbb]
  · rw [hbb]; norm_num

/-- With the beam along the z-axis of the laboratory (and no faster than light) the excluded case cannot occur. -/
theorem gj_beam_along_z {beam X : LV} (hbx : beam.x = 0) (hby : beam.y = 0) (hbz : 0 < beam.z) (hbt : beam.z ≤ beam.t)
    (hm : 0 < X.m2) (ht : 0 < X.t) (hX : X.x ≠ 0 ∨ X.y ≠ 0) : IsGJ beam X (gjTransform beam X) := by
  have hc : cross beam.vect X.vect ≠ ⟨0, 0, 0⟩ := by
    intro h
    have h1 := congrArg V3.x h
    have h2 := congrArg V3.y h
    unfold cross LV.vect at h1 h2
    dsimp only at h1 h2
    rw [hby] at h1
    rw [hbx] at h2
    rcases hX with hx | hx
    · exact hx ((mul_eq_zero.mp (by linarith : beam.z * X.x = 0)).resolve_left hbz.ne')
    · exact hx ((mul_eq_zero.mp (by linarith : beam.z * X.y = 0)).resolve_left hbz.ne')
  refine gj_frame hm ht hc (Or.inl ?_)
  obtain ⟨h1, h2, h3, h4, h5, h6⟩ := gj_steps hm ht hc
  have hpos := cross_mag_pos hc
  obtain ⟨A, hA⟩ : ∃ A, A = alignY (cross beam.vect X.vect) := ⟨_, rfl⟩
  have fA : Frame A := by rw [hA]; exact frame_alignY _
  have hb0 : A beam = ⟨0, 0, beam.z, beam.t⟩ := by
    -- the normal is in the x-y-plane: the first rotation keeps the z-axis
    have hnz : (cross beam.vect X.vect).z = 0 := by
      unfold cross LV.vect; dsimp only; rw [hbx, hby]; ring
    have hth : theta (cross beam.vect X.vect) = Real.pi / 2 := by
      have hp : perp (cross beam.vect X.vect) = mag (cross beam.vect X.vect) := by
        unfold perp mag; rw [hnz]; congr 1; ring
      have hpp : 0 < Real.sqrt ((cross beam.vect X.vect).x * (cross beam.vect X.vect).x
          + (cross beam.vect X.vect).y * (cross beam.vect X.vect).y) := by
        show 0 < perp _; rw [hp]; exact hpos
      unfold theta atan2
      rw [hnz]
      have : (⟨0, Real.sqrt ((cross beam.vect X.vect).x * (cross beam.vect X.vect).x
          + (cross beam.vect X.vect).y * (cross beam.vect X.vect).y)⟩ : ℂ)
          = (Real.sqrt ((cross beam.vect X.vect).x * (cross beam.vect X.vect).x
          + (cross beam.vect X.vect).y * (cross beam.vect X.vect).y) : ℂ) * Complex.I := by
        apply Complex.ext <;> simp
      rw [this, Complex.arg_real_mul _ hpp, Complex.arg_I]
    rw [hA]
    unfold alignY
    rw [hth, sub_self]
    unfold rotX rotZ
    rw [Real.sin_zero, Real.cos_zero, hbx, hby]
    ext <;> dsimp only <;> ring
  have hXy : (A X).y = 0 := by
    rw [hA]
    exact alignY_orth hpos (by unfold cross LV.vect; dsimp only; ring)
  have hXx : (A X).x ≠ 0 := by
    intro hx0
    apply hc
    -- then `X` is parallel to the beam
    have hpar : X = smul (X.z / beam.z) ⟨0, 0, beam.z, beam.t⟩ + ⟨0, 0, 0, X.t - X.z / beam.z * beam.t⟩ := by
      have hz : prod X ⟨0, 0, 1, 0⟩ = -X.z := by unfold prod; dsimp only; ring
      refine prod_ext fun r => ?_
      rw [← fA.keeps_prod X r, ← fA.keeps_prod _ r]
      have e1 : A (smul (X.z / beam.z) ⟨0, 0, beam.z, beam.t⟩ + ⟨0, 0, 0, X.t - X.z / beam.z * beam.t⟩)
          = ⟨0, 0, X.z, X.t⟩ := by
        rw [fA.map_add, fA.map_smul]
        have hb1 : beam = ⟨0, 0, beam.z, beam.t⟩ := by ext <;> simp [hbx, hby]
        have hb2 : A ⟨0, 0, beam.z, beam.t⟩ = ⟨0, 0, beam.z, beam.t⟩ := by
          conv_lhs => rw [← hb1]
          exact hb0
        rw [hb2]
        have e2 : A ⟨0, 0, 0, X.t - X.z / beam.z * beam.t⟩ = ⟨0, 0, 0, X.t - X.z / beam.z * beam.t⟩ := by
          rw [hA]; unfold alignY rotX rotZ; ext <;> dsimp only <;> ring
        rw [e2]
        unfold smul
        ext <;> simp only [add_x, add_y, add_z, add_t]
        · ring
        · ring
        · field_simp; ring
        · ring
      rw [e1]
      have e3 : A X = ⟨0, 0, X.z, X.t⟩ := by
        have hzz : (A X).z = X.z := by
          have h := fA.keeps_prod X beam
          rw [hb0] at h
          unfold prod at h
          dsimp only at h
          rw [hbx, hby] at h
          have htt : (A X).t = X.t := by rw [hA]; exact alignY_t _ _
          rw [htt] at h
          exact mul_right_cancel₀ hbz.ne' (by linarith)
        ext
        · exact hx0
        · exact hXy
        · exact hzz
        · rw [hA]; exact alignY_t _ _
      rw [e3]
    have hx := congrArg LV.x hpar
    have hy := congrArg LV.y hpar
    unfold smul at hx hy
    simp only [add_x, add_y] at hx hy
    have hx' : X.x = 0 := by linarith
    have hy' : X.y = 0 := by linarith
    unfold cross LV.vect
    ext <;> simp [hbx, hby, hx', hy']
  -- the x-component after the boost
  have hbb : beamBoosted beam X = (A beam).boost (A X).boostVector.neg := by rw [hA]; rfl
  rw [hbb, hb0]
  rw [← hA] at h1
  obtain ⟨g, g2, hg, k1, _, k3, k4⟩ := boost_eq h1
  rw [k4]
  dsimp only
  obtain ⟨vx, hvx⟩ : ∃ vx, vx = (A X).boostVector.neg.x := ⟨_, rfl⟩
  obtain ⟨vz, hvz⟩ : ∃ vz, vz = (A X).boostVector.neg.z := ⟨_, rfl⟩
  have hvy : (A X).boostVector.neg.y = 0 := by rw [hA]; exact h2
  have hvx0 : vx ≠ 0 := by
    rw [hvx]
    show -((A X).x / (A X).t) ≠ 0
    have : (A X).t ≠ 0 := by rw [hA, alignY_t]; exact ht.ne'
    exact neg_ne_zero.mpr (div_ne_zero hXx this)
  have k1 : g ^ 2 * (1 - (vx * vx + vz * vz)) = 1 := by
    unfold b2 at k1
    rw [hvy, ← hvx, ← hvz] at k1
    linear_combination k1
  have k3 : g2 * (vx * vx + vz * vz) = g - 1 := by
    unfold b2 at k3
    rw [hvy, ← hvx, ← hvz] at k3
    linear_combination k3
  have h1 : vx * vx + vz * vz < 1 := by
    unfold b2 at h1
    rw [hvy, ← hvx, ← hvz] at h1
    linarith
  rw [hvy, ← hvx, ← hvz]
  have key : 0 < g2 * (vz * beam.z) + g * beam.t := by
    have hq : 0 < vx * vx + vz * vz := by
      have := mul_self_pos.mpr hvx0
      nlinarith [mul_self_nonneg vz]
    have hvz1 : -1 < vz := by
      have : vz ^ 2 < 1 ^ 2 := by nlinarith [mul_self_pos.mpr hvx0]
      exact (abs_lt.mp ((sq_lt_sq₀ (abs_nonneg _) (by norm_num)).mp (by rw [sq_abs]; exact this))).1
    have hg2 : g2 * (vx * vx + vz * vz) = g - 1 := k3
    have hg1 : 1 ≤ g := by
      have h : 1 ≤ g ^ 2 := by
        nlinarith [mul_nonneg (sq_nonneg g) hq.le]
      nlinarith
    have hg20 : 0 ≤ g2 := by
      have : 0 ≤ g2 * (vx * vx + vz * vz) := by nlinarith
      exact nonneg_of_mul_nonneg_left this hq
    have hle : g2 ≤ g := by
      -- g2 (g+1) = g^2
      have h1' : g2 * (g + 1) * (vx * vx + vz * vz) = g ^ 2 * (vx * vx + vz * vz) := by
        linear_combination (g + 1) * hg2 + k1
      have h2' := mul_right_cancel₀ hq.ne' h1'
      nlinarith
    have : g2 * (-1 * beam.z) ≤ g2 * (vz * beam.z) := by
      apply mul_le_mul_of_nonneg_left _ hg20
      nlinarith
    have h3' : g * beam.z ≤ g * beam.t := mul_le_mul_of_nonneg_left hbt hg.le
    rcases hg20.lt_or_eq with hpos2 | h0
    · have : g2 * (-1 * beam.z) < g2 * (vz * beam.z) := by
        apply mul_lt_mul_of_pos_left _ hpos2
        nlinarith
      nlinarith
    · rw [← h0]
      nlinarith
  intro h0
  have : vx * (g2 * (vz * beam.z) + g * beam.t) = 0 := by linear_combination h0
  rcases mul_eq_zero.mp this with h | h
  · exact hvx0 h
  · exact key.ne' h

/-- a concrete event: the hypotheses hold, also after a rotation of the laboratory by 90 degrees about the z-axis -/
example : IsGJ ⟨0, 0, 190, 190⟩ ⟨1, 2, 180, 185⟩ (gjTransform ⟨0, 0, 190, 190⟩ ⟨1, 2, 180, 185⟩) :=
  gj_beam_along_z rfl rfl (by norm_num) (by norm_num) (by unfold LV.m2; norm_num) (by norm_num) (Or.inl (by norm_num))

theorem alignY_null (p : LV) : alignY ⟨0, 0, 0⟩ p = ⟨-p.y, p.z, -p.x, p.t⟩ := by
  have hphi : phi ⟨0, 0, 0⟩ = 0 := by
    unfold phi atan2
    exact Complex.arg_zero
  have hth : theta ⟨0, 0, 0⟩ = 0 := by
    unfold theta atan2
    dsimp only
    have : Real.sqrt (0 * 0 + 0 * 0) = 0 := by simp
    rw [this]
    exact Complex.arg_zero
  unfold alignY
  rw [hphi, hth, zero_sub, sub_zero]
  unfold rotX rotZ
  rw [Real.sin_neg, Real.cos_neg, Real.sin_pi_div_two, Real.cos_pi_div_two]
  ext <;> dsimp only <;> ring

/-- C53 fails for a system produced exactly along the beam (`t' = 0`): the code then puts the beam on the y-axis of its
"Gottfried-Jackson" frame. -/
theorem gj_collinear {beam X : LV} (hbx : beam.x = 0) (hby : beam.y = 0) (hXx : X.x = 0) (hXy : X.y = 0)
    (hne : beam ≠ X) (hm : 0 < X.m2) (ht : 0 < X.t) :
    (gjTransform beam X beam).x = 0 ∧ (gjTransform beam X beam).z = 0 ∧
      gjTransform beam X X = ⟨0, 0, 0, Real.sqrt X.m2⟩ := by
  have hc : cross beam.vect X.vect = ⟨0, 0, 0⟩ := by
    unfold cross LV.vect
    ext <;> simp [hbx, hby, hXx, hXy]
  have hA : ∀ q : LV, q.x = 0 → q.y = 0 → alignY (cross beam.vect X.vect) q = ⟨0, q.z, 0, q.t⟩ := by
    intro q h1 h2
    rw [hc, alignY_null, h1, h2, neg_zero]
  have e : ∀ p, gjTransform beam X p = rotY (-signum (beamBoosted beam X).x * theta (beamBoosted beam X).vect)
      ((alignY (cross beam.vect X.vect) p).boost (alignY (cross beam.vect X.vect) X).boostVector.neg) :=
    fun p => if_neg hne
  have hm1 : 0 < (alignY (cross beam.vect X.vect) X).m2 := by rw [(frame_alignY _).m2]; exact hm
  have hb : b2 (alignY (cross beam.vect X.vect) X).boostVector.neg < 1 := by
    rw [b2_neg]; exact (b2_boostVector hm1).1
  have hv : (alignY (cross beam.vect X.vect) X).boostVector.neg = ⟨0, -(X.z / X.t), 0⟩ := by
    rw [hA X hXx hXy]
    unfold LV.boostVector V3.neg
    ext <;> simp
  have hbb : (beamBoosted beam X).x = 0 ∧ (beamBoosted beam X).z = 0 := by
    unfold beamBoosted
    rw [hA beam hbx hby]
    obtain ⟨g, g2, _, _, _, _, h4⟩ := boost_eq hb
    rw [h4, hv]
    exact ⟨by dsimp only; ring, by dsimp only; ring⟩
  have hs : signum (beamBoosted beam X).x = 0 := by
    unfold signum
    rw [hbb.1, if_neg (lt_irrefl _), if_neg (lt_irrefl _)]
  have hrot : ∀ p, rotY 0 p = p := by
    intro p
    unfold rotY
    rw [Real.sin_zero, Real.cos_zero]
    ext <;> dsimp only <;> ring
  refine ⟨?_, ?_, ?_⟩
  · rw [e, hs, neg_zero, zero_mul, hrot]
    exact hbb.1
  · rw [e, hs, neg_zero, zero_mul, hrot]
    exact hbb.2
  · rw [e, hs, neg_zero, zero_mul, hrot]
    exact boost_to_rest (Real.sqrt_pos.mpr hm) (by rw [(frame_alignY _).m2, Real.sq_sqrt hm.le]) ht

end Rpwa.Amp
