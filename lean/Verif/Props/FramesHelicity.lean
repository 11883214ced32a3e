import Verif.Props.Frames
import Verif.Model.Amplitude

/-!
# C53, continued: helicity frames
-/

namespace Rpwa.Amp

open Rpwa.Gen Spec

/-- The helicity frame is unique. -/
theorem hf_unique {d : LV} {L K : LV → LV} (hL : IsHF d L) (hK : IsHF d K) (p : LV) : L p = K p := by
  obtain ⟨fL, ⟨m, hm, eX⟩, ⟨k, e, hk, eb⟩, ⟨n, hn, en⟩⟩ := hL
  obtain ⟨fK, ⟨m', hm', eX'⟩, ⟨k', e', hk', eb'⟩, ⟨n', hn', en'⟩⟩ := hK
  have a1 := (fL.keeps_prod d d).trans (fK.keeps_prod d d).symm
  have a2 := (fL.keeps_prod ⟨0, 0, 0, 1⟩ d).trans (fK.keeps_prod ⟨0, 0, 0, 1⟩ d).symm
  have a3 := (fL.keeps_prod ⟨0, 0, 0, 1⟩ ⟨0, 0, 0, 1⟩).trans (fK.keeps_prod ⟨0, 0, 0, 1⟩ ⟨0, 0, 0, 1⟩).symm
  have a4 := (fL.keeps_prod ⟨-d.y, d.x, 0, 0⟩ ⟨-d.y, d.x, 0, 0⟩).trans (fK.keeps_prod ⟨-d.y, d.x, 0, 0⟩ ⟨-d.y, d.x, 0, 0⟩).symm
  have c1 := (fL.keeps_prod p d).trans (fK.keeps_prod p d).symm
  have c2 := (fL.keeps_prod p ⟨0, 0, 0, 1⟩).trans (fK.keeps_prod p ⟨0, 0, 0, 1⟩).symm
  have c3 := (fL.keeps_prod p ⟨-d.y, d.x, 0, 0⟩).trans (fK.keeps_prod p ⟨-d.y, d.x, 0, 0⟩).symm
  have c4 := (fL.keeps_vol p d ⟨0, 0, 0, 1⟩ ⟨-d.y, d.x, 0, 0⟩).trans
    (fK.keeps_vol p d ⟨0, 0, 0, 1⟩ ⟨-d.y, d.x, 0, 0⟩).symm
  rw [vol_eq, vol_eq] at c4
  rw [eX, eX'] at a1 a2 c1 c4
  rw [eb, eb'] at a2 a3 c2 c4
  rw [en, en'] at a4 c3 c4
  unfold prod at a1 a2 a3 a4 c1 c2 c3
  dsimp only at a1 a2 a3 a4 c1 c2 c3 c4
  have hmm : m = m' := (pow_left_inj₀ hm.le hm'.le two_ne_zero).mp (by linear_combination a1)
  have hnn : n = n' := (pow_left_inj₀ hn.le hn'.le two_ne_zero).mp (by linear_combination -a4)
  subst hmm hnn
  have hee : e = e' := mul_right_cancel₀ hm.ne' (by linear_combination a2)
  subst hee
  have hkk : k = k' := (pow_left_inj₀ hk.le hk'.le two_ne_zero).mp (by linear_combination -a3)
  subst hkk
  have ht : (L p).t = (K p).t := mul_right_cancel₀ hm.ne' (by linear_combination c1)
  have hy : (L p).y = (K p).y := mul_right_cancel₀ hn.ne' (by linear_combination -c3)
  have hz : (L p).z = (K p).z := mul_right_cancel₀ hk.ne' (by linear_combination c2 - e * ht)
  have hx : (L p).x = (K p).x := by
    have : (m * k * n) ≠ 0 := by positivity
    refine mul_right_cancel₀ this ?_
    linear_combination c4
  ext
  · exact hx
  · exact hy
  · exact hz
  · exact ht

/-- C53, helicity frame: for a massive daughter that does not fly along the z-axis of its parent's frame the
transformation of the code leads to the helicity frame. -/
theorem hf_frame {d : LV} (hm : 0 < d.m2) (ht : 0 < d.t) (hd : d.x ≠ 0 ∨ d.y ≠ 0) : IsHF d (hfTransform d) := by
  obtain ⟨v, hv⟩ : ∃ v, v = cross ⟨0, 0, 1⟩ d.vect := ⟨_, rfl⟩
  have hvc : v = ⟨-d.y, d.x, 0⟩ := by
    rw [hv]; unfold cross LV.vect; ext <;> simp
  have hpos : 0 < mag v := by
    rw [hvc]
    unfold mag
    apply Real.sqrt_pos.mpr
    dsimp only
    rcases hd with h | h
    · have := mul_self_pos.mpr h; nlinarith [mul_self_nonneg d.y]
    · have := mul_self_pos.mpr h; nlinarith [mul_self_nonneg d.x]
  have hth : theta v = Real.pi / 2 := by
    have hpp : 0 < Real.sqrt (v.x * v.x + v.y * v.y) := by
      have : mag v = Real.sqrt (v.x * v.x + v.y * v.y) := by
        unfold mag; rw [hvc]; congr 1; ring
      rw [← this]; exact hpos
    unfold theta atan2
    have hz : v.z = 0 := by rw [hvc]
    rw [hz]
    have : (⟨0, Real.sqrt (v.x * v.x + v.y * v.y)⟩ : ℂ) = (Real.sqrt (v.x * v.x + v.y * v.y) : ℂ) * Complex.I := by
      apply Complex.ext <;> simp
    rw [this, Complex.arg_real_mul _ hpp, Complex.arg_I]
  have hA : ∀ p : LV, alignY v p = rotZ (Real.pi / 2 - phi v) p := by
    intro p
    unfold alignY
    rw [hth, sub_self]
    unfold rotX
    rw [Real.sin_zero, Real.cos_zero]
    ext <;> dsimp only <;> ring
  have hper : perp v = mag v := by unfold perp mag; rw [hvc]; congr 1; ring
  have h1 := perp_cos v
  have h2 := perp_sin v
  have h5 := Real.sin_sq_add_cos_sq (phi v)
  have hvx : v.x = -d.y := by rw [hvc]
  have hvy : v.y = d.x := by rw [hvc]
  rw [hvx] at h1
  rw [hvy] at h2
  rw [hper] at h1 h2
  have hd1 : alignY v d = ⟨mag v, 0, d.z, d.t⟩ := by
    rw [hA]
    unfold rotZ
    rw [Real.cos_pi_div_two_sub, Real.sin_pi_div_two_sub]
    ext <;> dsimp only
    · linear_combination -Real.sin (phi v) * h2 - Real.cos (phi v) * h1 + mag v * h5
    · linear_combination -Real.cos (phi v) * h2 + Real.sin (phi v) * h1
  obtain ⟨B, hB⟩ : ∃ B, B = rotY (-signum (alignY v d).x * theta (alignY v d).vect) := ⟨_, rfl⟩
  have fB : Frame B := by rw [hB]; exact frame_rotY _
  have hd2 : B (alignY v d) = ⟨0, 0, mag (alignY v d).vect, d.t⟩ := by
    rw [hB]
    refine rotY_toZ ?_ (Or.inl ?_)
    · rw [hd1]
    · rw [hd1]; exact hpos.ne'
  have hmm : (B (alignY v d)).m2 = d.m2 := by rw [fB.m2, (frame_alignY v).m2]
  have hb : b2 (B (alignY v d)).boostVector.neg < 1 := by
    rw [b2_neg]; exact (b2_boostVector (by rw [hmm]; exact hm)).1
  have hdt : 0 < (B (alignY v d)).t := by rw [hd2]; exact ht
  have hrest : (B (alignY v d)).boost (B (alignY v d)).boostVector.neg = ⟨0, 0, 0, Real.sqrt d.m2⟩ :=
    boost_to_rest (Real.sqrt_pos.mpr hm) (by rw [hmm, Real.sq_sqrt hm.le]) hdt
  have e : hfTransform d = fun p => (B (alignY v p)).boost (B (alignY v d)).boostVector.neg := by
    funext p
    rw [hB, hv]
    rfl
  have hmag : 0 < mag (alignY v d).vect := by
    unfold mag
    apply Real.sqrt_pos.mpr
    rw [hd1]
    unfold LV.vect
    dsimp only
    nlinarith [mul_self_pos.mpr hpos.ne', mul_self_nonneg d.z]
  have hvec : (B (alignY v d)).boostVector.neg = ⟨0, 0, -(mag (alignY v d).vect / d.t)⟩ := by
    rw [hd2]
    unfold LV.boostVector V3.neg
    ext <;> simp
  rw [e]
  refine ⟨(frame_boost hb).comp (fB.comp (frame_alignY v)), ⟨_, Real.sqrt_pos.mpr hm, hrest⟩, ?_,
    ⟨mag v, hpos, ?_⟩⟩
  · have h0 : B (alignY v ⟨0, 0, 0, 1⟩) = ⟨0, 0, 0, 1⟩ := by
      have : alignY v ⟨0, 0, 0, 1⟩ = ⟨0, 0, 0, 1⟩ := by
        unfold alignY rotX rotZ; ext <;> dsimp only <;> ring
      rw [this, hB, rotY_rest]
    obtain ⟨g, g2, hg, _, _, _, h4⟩ := boost_eq hb
    refine ⟨g * (mag (alignY v d).vect / d.t), g, by positivity, ?_⟩
    show (B (alignY v ⟨0, 0, 0, 1⟩)).boost _ = _
    rw [h0, h4, hvec]
    ext <;> dsimp only <;> ring
  · show (B (alignY v ⟨-d.y, d.x, 0, 0⟩)).boost _ = _
    have : (⟨-d.y, d.x, 0, 0⟩ : LV) = ⟨v.x, v.y, v.z, 0⟩ := by rw [hvc]
    rw [this, alignY_axis, hB, rotY_fix_y]
    refine boost_fix_y ?_ ?_ _
    · rw [← hB]; exact hb
    · rw [← hB, hvec]


theorem reflY_reflY (p : LV) : reflY (reflY p) = p := by
  unfold reflY; ext <;> dsimp only; ring

theorem prod_reflY (p q : LV) : prod (reflY p) (reflY q) = prod p q := by
  unfold prod reflY; dsimp only; ring

theorem vol_reflY (a b c d : LV) : vol (reflY a) (reflY b) (reflY c) (reflY d) = -vol a b c d := by
  rw [vol_eq, vol_eq]; unfold reflY; dsimp only; ring

theorem Spec.Frame.conj_reflY {L : LV → LV} (hL : Frame L) : Frame (fun p => reflY (L (reflY p))) := by
  refine ⟨fun p => ?_, fun p q => ?_, fun a b c d => ?_⟩
  · obtain ⟨q, hq⟩ := hL.onto (reflY p)
    exact ⟨reflY q, by rw [reflY_reflY, hq, reflY_reflY]⟩
  · rw [prod_reflY, hL.keeps_prod, prod_reflY]
  · rw [vol_reflY, hL.keeps_vol, vol_reflY, neg_neg]

/-- reflecting the parent's rest frame in the x-z-plane reflects the helicity frame in its x-z-plane -/
theorem hf_reflY {d : LV} (hm : 0 < d.m2) (ht : 0 < d.t) (hd : d.x ≠ 0 ∨ d.y ≠ 0) (p : LV) :
    hfTransform (reflY d) (reflY p) = reflY (hfTransform d p) := by
  have hm' : 0 < (reflY d).m2 := by
    have : (reflY d).m2 = d.m2 := prod_reflY d d
    rw [this]; exact hm
  have h' := hf_frame (d := reflY d) hm' ht (by
    rcases hd with h | h
    · exact Or.inl h
    · exact Or.inr (neg_ne_zero.mpr h))
  have h := hf_frame hm ht hd
  have hc : IsHF (reflY d) (fun p => reflY (hfTransform d (reflY p))) := by
    obtain ⟨f, ⟨m, hm0, eX⟩, ⟨k, e, hk, eb⟩, ⟨n, hn, en⟩⟩ := h
    refine ⟨f.conj_reflY, ⟨m, hm0, ?_⟩, ⟨k, e, hk, ?_⟩, ⟨n, hn, ?_⟩⟩
    · (try dsimp only)
      rw [reflY_reflY, eX]
      unfold reflY; ext <;> dsimp only; ring
    · (try dsimp only)
      have : reflY ⟨0, 0, 0, 1⟩ = ⟨0, 0, 0, 1⟩ := by unfold reflY; ext <;> dsimp only; ring
      rw [this, eb]
      unfold reflY; ext <;> dsimp only; ring
    · (try dsimp only)
      have : reflY ⟨-(reflY d).y, (reflY d).x, 0, 0⟩ = smul (-1) ⟨-d.y, d.x, 0, 0⟩ := by
        unfold reflY smul; ext <;> dsimp only <;> ring
      rw [this, f.map_smul, en]
      unfold reflY smul; ext <;> dsimp only <;> ring
  have := hf_unique h' hc (reflY p)
  rw [this, reflY_reflY]

/-- rotating the parent's rest frame about the z-axis does not change momenta in the helicity frame -/
theorem hf_rotZ {d : LV} (hm : 0 < d.m2) (ht : 0 < d.t) (hd : d.x ≠ 0 ∨ d.y ≠ 0) (a : ℝ) (p : LV) :
    hfTransform (rotZ a d) (rotZ a p) = hfTransform d p := by
  have hs := Real.sin_sq_add_cos_sq a
  have fR := frame_rotZ a
  have h' := hf_frame (d := rotZ a d) (by rw [fR.m2]; exact hm) ht (by
    by_contra hc
    push Not at hc
    obtain ⟨h1, h2⟩ := hc
    unfold rotZ at h1 h2
    dsimp only at h1 h2
    have hx : d.x = 0 := by linear_combination Real.cos a * h1 + Real.sin a * h2 - d.x * hs
    have hy : d.y = 0 := by linear_combination Real.cos a * h2 - Real.sin a * h1 - d.y * hs
    rcases hd with h | h
    · exact h hx
    · exact h hy)
  have h := hf_frame hm ht hd
  refine hf_unique (L := fun q => hfTransform (rotZ a d) (rotZ a q)) ⟨h'.frame.comp fR, h'.rest, ?_, ?_⟩ h p
  · obtain ⟨k, e, hk, eb⟩ := h'.parent_z
    refine ⟨k, e, hk, ?_⟩
    have : rotZ a ⟨0, 0, 0, 1⟩ = ⟨0, 0, 0, 1⟩ := by unfold rotZ; ext <;> dsimp only <;> ring
    (try dsimp only)
    rw [this, eb]
  · obtain ⟨n, hn, en⟩ := h'.normal_y
    refine ⟨n, hn, ?_⟩
    have : rotZ a ⟨-d.y, d.x, 0, 0⟩ = ⟨-(rotZ a d).y, (rotZ a d).x, 0, 0⟩ := by
      unfold rotZ; ext <;> dsimp only <;> ring
    (try dsimp only)
    rw [this, en]

/-- C53 fails for a daughter that flies exactly along the z-axis of its parent's frame: what is at rest in the parent's
frame then moves along the y-axis of the "helicity frame", not along the z-axis. -/
theorem hf_along_z {d : LV} (hm : 0 < d.m2) (ht : 0 < d.t) (hx : d.x = 0) (hy : d.y = 0) (hz : d.z ≠ 0) :
    ∃ k e, k ≠ 0 ∧ hfTransform d ⟨0, 0, 0, 1⟩ = ⟨0, k, 0, e⟩ := by
  have hc : cross ⟨0, 0, 1⟩ d.vect = ⟨0, 0, 0⟩ := by
    unfold cross LV.vect; ext <;> simp [hx, hy]
  have hA : alignY (cross ⟨0, 0, 1⟩ d.vect) d = ⟨0, d.z, 0, d.t⟩ := by
    rw [hc, alignY_null, hx, hy, neg_zero]
  have hs : signum (alignY (cross ⟨0, 0, 1⟩ d.vect) d).x = 0 := by
    unfold signum
    rw [hA, if_neg (lt_irrefl _), if_neg (lt_irrefl _)]
  have hrot : ∀ p, rotY 0 p = p := by
    intro p
    unfold rotY
    rw [Real.sin_zero, Real.cos_zero]
    ext <;> dsimp only <;> ring
  have e : hfTransform d ⟨0, 0, 0, 1⟩ = (⟨0, 0, 0, 1⟩ : LV).boost ⟨0, -(d.z / d.t), 0⟩ := by
    unfold hfTransform
    dsimp only
    rw [hs, neg_zero, zero_mul, hrot, hrot, hA]
    have h0 : alignY (cross ⟨0, 0, 1⟩ d.vect) ⟨0, 0, 0, 1⟩ = ⟨0, 0, 0, 1⟩ := by
      rw [hc, alignY_null, neg_zero]
    rw [h0]
    have : (LV.boostVector ⟨0, d.z, 0, d.t⟩).neg = ⟨0, -(d.z / d.t), 0⟩ := by
      unfold LV.boostVector V3.neg; ext <;> simp
    rw [this]
  have hb : b2 ⟨0, -(d.z / d.t), 0⟩ < 1 := by
    have h := (b2_boostVector hm).1
    unfold b2 LV.boostVector at h
    unfold b2
    dsimp only at h ⊢
    rw [hx, hy] at h
    simp only [zero_div, mul_zero, zero_add, add_zero] at h ⊢
    linarith
  obtain ⟨g, g2, hg, _, _, _, h4⟩ := boost_eq hb
  refine ⟨-(g * (d.z / d.t)), g, neg_ne_zero.mpr (mul_ne_zero hg.ne' (div_ne_zero hz ht.ne')), ?_⟩
  rw [e, h4]
  ext <;> dsimp only <;> ring

example : IsHF ⟨1, 2, 3, 5⟩ (hfTransform ⟨1, 2, 3, 5⟩) :=
  hf_frame (by unfold LV.m2; norm_num) (by norm_num) (Or.inl (by norm_num))

end Rpwa.Amp
