import Verif.Lemmas.Kinematics

/-!
# C44: kinematics of generated diffractive events
-/

namespace Rpwa.Gen

open Spec

/-! ## the numbers of the calculation -/

/-- quantities in the centre-of-mass system and what is known about them -/
structure CM (beam : LV) (mt mx mr : ℝ) (W ex px eb pb : ℝ) : Prop where
  hW : 0 < W
  hs : W ^ 2 = beam.m2 + mt ^ 2 + 2 * mt * beam.t
  hex : 2 * W * ex = W ^ 2 - mr ^ 2 + mx ^ 2
  heb : 2 * W * eb = W ^ 2 - mt ^ 2 + beam.m2
  hpx : px ^ 2 = ex ^ 2 - mx ^ 2
  hpb : pb ^ 2 = eb ^ 2 - beam.m2
  hpx0 : 0 ≤ px
  hpb0 : 0 ≤ pb
  hex0 : 0 ≤ ex
  her0 : 0 ≤ W - ex
  /-- beam momentum in the target rest frame -/
  hP : mt * beam.P = W * pb

theorem P_sq (p : LV) : p.P ^ 2 = p.t ^ 2 - p.m2 := by
  unfold LV.P LV.m2
  rw [Real.sq_sqrt (by nlinarith [mul_self_nonneg p.x, mul_self_nonneg p.y, mul_self_nonneg p.z])]
  ring

theorem P_nonneg (p : LV) : 0 ≤ p.P := Real.sqrt_nonneg _

theorem m2_target (beam : LV) (mt : ℝ) :
    (beam + target mt).m2 = beam.m2 + mt ^ 2 + 2 * mt * beam.t := by
  rw [m2_add]
  unfold target mdot LV.m2
  dsimp only
  ring

/-- centre-of-mass energy -/
noncomputable def cmW (beam : LV) (mt : ℝ) : ℝ := Real.sqrt (beam + target mt).m2
/-- energy of X in the centre-of-mass system -/
noncomputable def cmEx (beam : LV) (mt mx mr : ℝ) : ℝ :=
  ((beam + target mt).m2 - mr * mr + mx * mx) / (2 * cmW beam mt)
/-- momentum of X in the centre-of-mass system -/
noncomputable def cmPx (beam : LV) (mt mx mr : ℝ) : ℝ :=
  Real.sqrt (cmEx beam mt mx mr * cmEx beam mt mx mr - mx * mx)
/-- energy of the beam in the centre-of-mass system -/
noncomputable def cmEb (beam : LV) (mt : ℝ) : ℝ :=
  ((beam + target mt).m2 - mt * mt + beam.m2) / (2 * cmW beam mt)
/-- momentum of the beam in the centre-of-mass system -/
noncomputable def cmPb (beam : LV) (mt : ℝ) : ℝ :=
  Real.sqrt (cmEb beam mt * cmEb beam mt - beam.m2)

theorem s_pos {beam : LV} {mt mx mr : ℝ} (h : Physical beam mt mx mr) : 0 < (beam + target mt).m2 := by
  rw [m2_target]
  have := h.mass
  have := h.targetMass
  have := h.energy
  positivity

theorem cm_args {beam : LV} {mt mx mr : ℝ} (h : Physical beam mt mx mr) :
    0 ≤ cmEx beam mt mx mr * cmEx beam mt mx mr - mx * mx ∧
    0 ≤ cmEb beam mt * cmEb beam mt - beam.m2 := by
  have hs := s_pos h
  have hW : 0 < cmW beam mt := Real.sqrt_pos.mpr hs
  have hW2 : cmW beam mt ^ 2 = (beam + target mt).m2 := Real.sq_sqrt hs.le
  have ht := h.threshold
  have hmx := h.xMass
  have hmr := h.recoilMass
  constructor
  · have : cmEx beam mt mx mr * cmEx beam mt mx mr - mx * mx
        = ((beam + target mt).m2 - (mx + mr) ^ 2) * ((beam + target mt).m2 - (mx - mr) ^ 2)
          / (4 * (beam + target mt).m2) := by
      unfold cmEx
      rw [← hW2]
      field_simp
      ring
    rw [this]
    refine div_nonneg (mul_nonneg (by linarith) ?_) (by linarith)
    nlinarith [mul_nonneg hmx hmr]
  · have : cmEb beam mt * cmEb beam mt - beam.m2
        = (mt * beam.P) ^ 2 / (beam + target mt).m2 := by
      unfold cmEb
      rw [mul_pow, P_sq, eq_div_iff hs.ne']
      have e := m2_target beam mt
      rw [← hW2] at e ⊢
      field_simp
      have e2 : beam.m2 = cmW beam mt ^ 2 - mt ^ 2 - 2 * mt * beam.t := by linarith
      rw [e2]
      ring
    rw [this]
    positivity

theorem cm_of {beam : LV} {mt mx mr : ℝ} (h : Physical beam mt mx mr) :
    CM beam mt mx mr (cmW beam mt) (cmEx beam mt mx mr) (cmPx beam mt mx mr) (cmEb beam mt)
      (cmPb beam mt) := by
  have hs := s_pos h
  have hW : 0 < cmW beam mt := Real.sqrt_pos.mpr hs
  have hW2 : cmW beam mt ^ 2 = (beam + target mt).m2 := Real.sq_sqrt hs.le
  obtain ⟨h1, h2⟩ := cm_args h
  have ht := h.threshold
  have hmx := h.xMass
  have hmr := h.recoilMass
  have hex : 2 * cmW beam mt * cmEx beam mt mx mr = cmW beam mt ^ 2 - mr ^ 2 + mx ^ 2 := by
    unfold cmEx; rw [← hW2]; field_simp
  have heb : 2 * cmW beam mt * cmEb beam mt = cmW beam mt ^ 2 - mt ^ 2 + beam.m2 := by
    unfold cmEb; rw [← hW2]; field_simp
  have hpb : cmPb beam mt ^ 2 = cmEb beam mt ^ 2 - beam.m2 := by
    unfold cmPb; rw [Real.sq_sqrt h2]; ring
  refine ⟨hW, by rw [hW2, m2_target], hex, heb, ?_, hpb, Real.sqrt_nonneg _, Real.sqrt_nonneg _,
    ?_, ?_, ?_⟩
  · unfold cmPx; rw [Real.sq_sqrt h1]; ring
  · refine div_nonneg ?_ (by linarith)
    nlinarith [mul_nonneg hmx hmr]
  · have : 0 ≤ 2 * cmW beam mt * (cmW beam mt - cmEx beam mt mx mr) := by
      have : 2 * cmW beam mt * (cmW beam mt - cmEx beam mt mx mr)
          = cmW beam mt ^ 2 + mr ^ 2 - mx ^ 2 := by linear_combination -hex
      rw [this, hW2]
      nlinarith [mul_nonneg hmx hmr]
    exact nonneg_of_mul_nonneg_right this (by linarith)
  · have hpos : 0 ≤ mt * beam.P := mul_nonneg h.targetMass.le (P_nonneg _)
    have hpos' : 0 ≤ cmW beam mt * cmPb beam mt := mul_nonneg hW.le (Real.sqrt_nonneg _)
    refine (pow_left_inj₀ hpos hpos' two_ne_zero).mp ?_
    rw [mul_pow, mul_pow, P_sq, hpb]
    have e := m2_target beam mt
    rw [← hW2] at e
    have e2 : beam.m2 = cmW beam mt ^ 2 - mt ^ 2 - 2 * mt * beam.t := by linarith
    have : 4 * (cmW beam mt ^ 2 * cmEb beam mt ^ 2) = (cmW beam mt ^ 2 - mt ^ 2 + beam.m2) ^ 2 := by
      rw [← heb]; ring
    have e3 : cmW beam mt ^ 2 * (cmEb beam mt ^ 2 - beam.m2)
        = (cmW beam mt ^ 2 - mt ^ 2 + beam.m2) ^ 2 / 4 - cmW beam mt ^ 2 * beam.m2 := by
      rw [← this]; ring
    rw [e3, e2]
    ring

/-- largest and smallest momentum transfer -/
def tmax (beam : LV) (mx ex px eb pb : ℝ) : ℝ := mx ^ 2 + beam.m2 - 2 * (ex * eb - px * pb)
/-- smallest momentum transfer -/
def tmin (beam : LV) (mx ex px eb pb : ℝ) : ℝ := mx ^ 2 + beam.m2 - 2 * (ex * eb + px * pb)

/-- energy of X in the target rest frame for momentum transfer `t` -/
noncomputable def labE (beam : LV) (mt mr t : ℝ) : ℝ := beam.t + (mt ^ 2 - mr ^ 2 + t) / (2 * mt)

/-- twice the scalar product of beam momentum and momentum of X -/
noncomputable def num (beam : LV) (mt mx mr t : ℝ) : ℝ :=
  t - mx ^ 2 - beam.m2 + 2 * beam.t * labE beam mt mr t

section
variable {beam : LV} {mt mx mr W ex px eb pb : ℝ}

theorem quad (hmt : 0 < mt) (c : CM beam mt mx mr W ex px eb pb) (t : ℝ) :
    num beam mt mx mr t ^ 2 - 4 * beam.P ^ 2 * (labE beam mt mr t ^ 2 - mx ^ 2)
      = W ^ 2 / mt ^ 2 * ((t - tmax beam mx ex px eb pb) * (t - tmin beam mx ex px eb pb)) := by
  have h1 : (t - tmax beam mx ex px eb pb) * (t - tmin beam mx ex px eb pb)
      = (t - mx ^ 2 - beam.m2 + 2 * (ex * eb)) ^ 2 - 4 * (px ^ 2 * pb ^ 2) := by
    unfold tmax tmin; ring
  rw [h1, c.hpx, c.hpb, P_sq]
  have hW := c.hW.ne'
  have e2 : beam.m2 = W ^ 2 - mt ^ 2 - 2 * mt * beam.t := by linarith [c.hs]
  have hex : ex = (W ^ 2 - mr ^ 2 + mx ^ 2) / (2 * W) := by
    rw [eq_div_iff (by positivity)]; linarith [c.hex]
  have heb : eb = (W ^ 2 - mt ^ 2 + beam.m2) / (2 * W) := by
    rw [eq_div_iff (by positivity)]; linarith [c.heb]
  unfold num labE
  rw [hex, heb, e2]
  field_simp
  ring

theorem tmin_le_tmax (c : CM beam mt mx mr W ex px eb pb) :
    tmin beam mx ex px eb pb ≤ tmax beam mx ex px eb pb := by
  have := mul_nonneg c.hpx0 c.hpb0
  unfold tmin tmax; linarith

theorem labE_tmax (hmt : 0 < mt) (c : CM beam mt mx mr W ex px eb pb) :
    W * labE beam mt mr (tmax beam mx ex px eb pb) = (beam.t + mt) * ex + beam.P * px := by
  have hW := c.hW.ne'
  have e2 : beam.m2 = W ^ 2 - mt ^ 2 - 2 * mt * beam.t := by linarith [c.hs]
  have hP : beam.P = W * pb / mt := by rw [eq_div_iff hmt.ne', mul_comm]; exact c.hP
  have hex : mr ^ 2 = W ^ 2 + mx ^ 2 - 2 * W * ex := by linarith [c.hex]
  have heb : eb = (W ^ 2 - mt ^ 2 + beam.m2) / (2 * W) := by
    rw [eq_div_iff (by positivity)]; linarith [c.heb]
  unfold labE tmax
  rw [hP, hex, heb, e2]
  field_simp
  ring

theorem labE_tmin (hmt : 0 < mt) (c : CM beam mt mx mr W ex px eb pb) :
    W * labE beam mt mr (tmin beam mx ex px eb pb) = (beam.t + mt) * ex - beam.P * px := by
  have hW := c.hW.ne'
  have e2 : beam.m2 = W ^ 2 - mt ^ 2 - 2 * mt * beam.t := by linarith [c.hs]
  have hP : beam.P = W * pb / mt := by rw [eq_div_iff hmt.ne', mul_comm]; exact c.hP
  have hex : mr ^ 2 = W ^ 2 + mx ^ 2 - 2 * W * ex := by linarith [c.hex]
  have heb : eb = (W ^ 2 - mt ^ 2 + beam.m2) / (2 * W) := by
    rw [eq_div_iff (by positivity)]; linarith [c.heb]
  unfold labE tmin
  rw [hP, hex, heb, e2]
  field_simp
  ring

/-- at the largest momentum transfer X goes into beam direction -/
theorem num_tmax (hmt : 0 < mt) (c : CM beam mt mx mr W ex px eb pb) :
    W * num beam mt mx mr (tmax beam mx ex px eb pb)
      = 2 * beam.P * (beam.P * ex + (beam.t + mt) * px) := by
  have hW := c.hW.ne'
  have e2 : beam.m2 = W ^ 2 - mt ^ 2 - 2 * mt * beam.t := by linarith [c.hs]
  have hP : beam.P = W * pb / mt := by rw [eq_div_iff hmt.ne', mul_comm]; exact c.hP
  have heb : eb = (W ^ 2 - mt ^ 2 + beam.m2) / (2 * W) := by
    rw [eq_div_iff (by positivity)]; linarith [c.heb]
  have hl := labE_tmax hmt c
  have hpb := c.hpb
  have e3 : W * num beam mt mx mr (tmax beam mx ex px eb pb)
      = W * (-2 * (ex * eb - px * pb)) + 2 * beam.t * ((beam.t + mt) * ex + beam.P * px) := by
    unfold num
    rw [← hl]
    unfold tmax
    ring
  have h4 : W * pb = mt * beam.P := c.hP.symm
  have h5 : beam.P ^ 2 = beam.t ^ 2 - beam.m2 := P_sq beam
  have h6 : 2 * W * eb = 2 * beam.m2 + 2 * mt * beam.t := by linarith [c.heb, c.hs]
  rw [e3]
  linear_combination -ex * h6 + 2 * px * h4 - 2 * ex * h5

theorem tmax_recoil (c : CM beam mt mx mr W ex px eb pb) (hmt : 0 < mt) (hb : 0 < beam.t) :
    tmax beam mx ex px eb pb ≤ mt ^ 2 + mr ^ 2 := by
  have h1 : (W - ex) ^ 2 = mr ^ 2 + px ^ 2 := by linear_combination -c.hex - c.hpx
  have h2 : (W - eb) ^ 2 = mt ^ 2 + pb ^ 2 := by linear_combination -c.heb - c.hpb
  have h3 : 0 < W - eb := by
    have : 2 * W * (W - eb) = 2 * mt ^ 2 + 2 * mt * beam.t := by linear_combination c.hs - c.heb
    have : 0 < 2 * W * (W - eb) := by rw [this]; positivity
    exact (mul_pos_iff_of_pos_left (by linarith [c.hW])).mp this
  have h4 : mt ^ 2 + mr ^ 2 - tmax beam mx ex px eb pb = 2 * ((W - ex) * (W - eb) - px * pb) := by
    unfold tmax
    linear_combination c.hex + c.heb
  have h5 : px * pb ≤ (W - ex) * (W - eb) := by
    refine mul_le_mul ?_ ?_ c.hpb0 c.her0
    · exact abs_le_of_sq_le_sq' (by nlinarith [sq_nonneg mr]) c.her0 |>.2
    · exact abs_le_of_sq_le_sq' (by nlinarith [sq_nonneg mt]) h3.le |>.2
  linarith

end

/-! ## the calculation -/

theorem sqrt?_of {x : ℝ} (h : 0 ≤ x) : sqrt? x = some (Real.sqrt x) := if_neg (not_lt.mpr h)

theorem div?_of {x y : ℝ} (h : y ≠ 0) : div? x y = some (x / y) := if_neg h

open Classical in
/-- last part of the calculation -/
noncomputable def finish (beam : LV) (mt mx mr t t' phi : ℝ) : Option LV :=
  (sqrt? (labE beam mt mr t ^ 2 - mx ^ 2)).bind fun p =>
  (if t' = 0 then some 1 else div? (num beam mt mx mr t) (2 * beam.P * p)).bind fun c =>
  (sqrt? (1 - c * c)).bind fun sn =>
    some ⟨(V3.rotateUz beam.vect.unit ⟨p * sn * Real.cos phi, p * sn * Real.sin phi, p * c⟩).x,
      (V3.rotateUz beam.vect.unit ⟨p * sn * Real.cos phi, p * sn * Real.sin phi, p * c⟩).y,
      (V3.rotateUz beam.vect.unit ⟨p * sn * Real.cos phi, p * sn * Real.sin phi, p * c⟩).z,
      labE beam mt mr t⟩

theorem calc_eq {beam : LV} {mt mx mr : ℝ} (h : Physical beam mt mx mr) (t' phi : ℝ) :
    calculateXSystemLab beam mt mx mr (beam + target mt).m2 t' phi
      = finish beam mt mx mr (tmax beam mx (cmEx beam mt mx mr) (cmPx beam mt mx mr)
          (cmEb beam mt) (cmPb beam mt) - t') t' phi := by
  have hs := s_pos h
  have hW : 0 < cmW beam mt := Real.sqrt_pos.mpr hs
  obtain ⟨h1, h2⟩ := cm_args h
  have c := cm_of h
  unfold calculateXSystemLab
  rw [sqrt?_of hs.le]
  change (Option.bind (some (cmW beam mt)) _) = _
  rw [Option.bind_some]
  dsimp only
  rw [div?_of (by positivity)]
  change (Option.bind (some (cmEx beam mt mx mr)) _) = _
  rw [Option.bind_some, sqrt?_of h1]
  change (Option.bind (some (cmPx beam mt mx mr)) _) = _
  rw [Option.bind_some, div?_of (by positivity)]
  change (Option.bind (some (cmEb beam mt)) _) = _
  rw [Option.bind_some, sqrt?_of h2]
  change (Option.bind (some (cmPb beam mt)) _) = _
  rw [Option.bind_some, div?_of (by have := h.targetMass; positivity)]
  change (Option.bind (some _) _) = _
  rw [Option.bind_some]
  have ht : (cmEx beam mt mx mr - cmEb beam mt) * (cmEx beam mt mx mr - cmEb beam mt)
      - (cmPx beam mt mx mr - cmPb beam mt) * (cmPx beam mt mx mr - cmPb beam mt)
      = tmax beam mx (cmEx beam mt mx mr) (cmPx beam mt mx mr) (cmEb beam mt) (cmPb beam mt) := by
    unfold tmax
    linear_combination -c.hpx - c.hpb
  rw [ht]
  generalize tmax beam mx (cmEx beam mt mx mr) (cmPx beam mt mx mr) (cmEb beam mt) (cmPb beam mt) = t0
  have hE : beam.t + (mt * mt - mr * mr + (t0 - t')) / (2 * mt) = labE beam mt mr (t0 - t') := by
    unfold labE
    rw [sq, sq]
  rw [hE]
  unfold finish
  rw [← sq (labE beam mt mr (t0 - t')), ← sq mx]
  have hn : t0 - t' - mx ^ 2 - beam.m2 + 2 * beam.t * labE beam mt mr (t0 - t')
      = num beam mt mx mr (t0 - t') := rfl
  rw [hn]
  refine congrArg (Option.bind _) (funext fun p => ?_)
  by_cases hz : t' = 0
  · rw [if_pos hz, if_pos hz]
    rfl
  · rw [if_neg hz, if_neg hz]
    rfl

theorem mandelT_eq (beam X : LV) : mandelT beam X = X.m2 + beam.m2 - 2 * mdot X beam := m2_sub X beam

/-- energy of an allowed X in the target rest frame -/
theorem allowed_energy {beam : LV} {mt mx mr : ℝ} (hmt : 0 < mt) {X : LV}
    (h : Allowed beam mt mx mr X) : X.t = labE beam mt mr (mandelT beam X) := by
  have h3 := h.2.2.1
  rw [m2_sub, m2_target] at h3
  have e : mdot (beam + target mt) X = mdot X beam + mt * X.t := by
    unfold mdot target
    simp only [add_x, add_y, add_z, add_t]
    ring
  rw [e] at h3
  unfold labE
  rw [mandelT_eq]
  field_simp
  linear_combination -h3

theorem allowed_num {beam : LV} {mt mx mr : ℝ} (hmt : 0 < mt) {X : LV}
    (h : Allowed beam mt mx mr X) :
    num beam mt mx mr (mandelT beam X) = 2 * (beam.x * X.x + beam.y * X.y + beam.z * X.z) := by
  have e := allowed_energy hmt h
  unfold num
  rw [← e, mandelT_eq, h.1]
  unfold mdot
  ring

/-- momentum transfer of an allowed X is between the limits -/
theorem allowed_range {beam : LV} {mt mx mr : ℝ} (hP : Physical beam mt mx mr) {X : LV}
    (h : Allowed beam mt mx mr X) {W ex px eb pb : ℝ} (c : CM beam mt mx mr W ex px eb pb) :
    tmin beam mx ex px eb pb ≤ mandelT beam X ∧ mandelT beam X ≤ tmax beam mx ex px eb pb := by
  have hmt := hP.targetMass
  have q := quad hmt c (mandelT beam X)
  rw [allowed_num hmt h, ← allowed_energy hmt h, ← h.1, ← P_sq X] at q
  have hcs : (2 * (beam.x * X.x + beam.y * X.y + beam.z * X.z)) ^ 2
      - 4 * beam.P ^ 2 * X.P ^ 2 ≤ 0 := by
    rw [P_sq, P_sq]
    unfold LV.m2
    nlinarith [sq_nonneg (beam.x * X.y - beam.y * X.x), sq_nonneg (beam.x * X.z - beam.z * X.x),
      sq_nonneg (beam.y * X.z - beam.z * X.y)]
  rw [q] at hcs
  have hpos : 0 < W ^ 2 / mt ^ 2 := by have := c.hW; positivity
  have hprod := nonpos_of_mul_nonpos_right hcs hpos
  have hle := tmin_le_tmax c
  constructor
  · by_contra hc
    have hc := not_le.mp hc
    have := mul_pos_of_neg_of_neg (show mandelT beam X - tmax beam mx ex px eb pb < 0 by linarith)
      (show mandelT beam X - tmin beam mx ex px eb pb < 0 by linarith)
    linarith
  · by_contra hc
    have hc := not_le.mp hc
    have := mul_pos (show 0 < mandelT beam X - tmax beam mx ex px eb pb by linarith)
      (show 0 < mandelT beam X - tmin beam mx ex px eb pb by linarith)
    linarith

/-- what is needed of polar angle and momentum -/
theorem allowed_of_angles {beam : LV} {mt mx mr : ℝ} (hP : Physical beam mt mx mr) {W ex px eb pb : ℝ}
    (c : CM beam mt mx mr W ex px eb pb) {t p cs sn phi : ℝ} (ht : tmin beam mx ex px eb pb ≤ t)
    (ht' : t ≤ tmax beam mx ex px eb pb) (hp : p ^ 2 = labE beam mt mr t ^ 2 - mx ^ 2)
    (hc : num beam mt mx mr t = 2 * beam.P * (p * cs)) (hsn : sn ^ 2 + cs ^ 2 = 1) (X : LV)
    (hX : X.vect = V3.rotateUz beam.vect.unit ⟨p * sn * Real.cos phi, p * sn * Real.sin phi, p * cs⟩)
    (hXt : X.t = labE beam mt mr t) :
    Allowed beam mt mx mr X ∧ mandelT beam X = t := by
  have hmt := hP.targetMass
  have hv : 0 < beam.vect.dot beam.vect := by
    have : beam.P = Real.sqrt (beam.vect.dot beam.vect) := rfl
    exact Real.sqrt_pos.mp (this ▸ hP.moving)
  obtain ⟨hu, hbu⟩ := unit_spec hv
  have hnorm : X.x * X.x + X.y * X.y + X.z * X.z = p ^ 2 := by
    have : X.vect.dot X.vect = p ^ 2 := by
      rw [hX, rotateUz_dot hu]
      unfold V3.dot
      dsimp only
      linear_combination p ^ 2 * sn ^ 2 * Real.cos_sq_add_sin_sq phi + p ^ 2 * hsn
    exact this
  have hdot : beam.x * X.x + beam.y * X.y + beam.z * X.z = beam.P * (p * cs) := by
    have h1 := rotateUz_axis hu ⟨p * sn * Real.cos phi, p * sn * Real.sin phi, p * cs⟩
    rw [← hX] at h1
    have h2 : beam.vect.dot X.vect = Real.sqrt (beam.vect.dot beam.vect) * beam.vect.unit.dot X.vect := by
      have := congrArg (fun v => V3.dot v X.vect) hbu
      refine this.trans ?_
      unfold V3.dot
      dsimp only
      ring
    rw [h1] at h2
    exact h2
  have hm2 : X.m2 = mx ^ 2 := by
    unfold LV.m2
    rw [hnorm, hp, hXt]
    ring
  have hmd : mdot X beam = labE beam mt mr t * beam.t - beam.P * (p * cs) := by
    unfold mdot
    rw [hXt]
    linear_combination -hdot
  have hT : mandelT beam X = t := by
    rw [mandelT_eq, hm2, hmd]
    unfold num at hc
    linear_combination -hc
  have hE : 0 ≤ labE beam mt mr t := by
    have h1 : labE beam mt mr (tmin beam mx ex px eb pb) ≤ labE beam mt mr t := by
      unfold labE
      have : (mt ^ 2 - mr ^ 2 + tmin beam mx ex px eb pb) / (2 * mt) ≤ (mt ^ 2 - mr ^ 2 + t) / (2 * mt) :=
        div_le_div_of_nonneg_right (by linarith) (by linarith)
      linarith
    refine le_trans ?_ h1
    have h2 := labE_tmin hmt c
    have h3 : beam.P * px ≤ (beam.t + mt) * ex := by
      have hb := hP.energy
      refine mul_le_mul ?_ ?_ c.hpx0 (by linarith)
      · have := abs_le_of_sq_le_sq' (show beam.P ^ 2 ≤ beam.t ^ 2 by rw [P_sq]; linarith [hP.mass]) hb.le
        linarith [this.2]
      · exact (abs_le_of_sq_le_sq' (show px ^ 2 ≤ ex ^ 2 by rw [c.hpx]; nlinarith [sq_nonneg mx])
          c.hex0).2
    exact nonneg_of_mul_nonneg_right (show 0 ≤ W * labE beam mt mr (tmin beam mx ex px eb pb) by
      rw [h2]; linarith) c.hW
  have hrec : (beam + target mt - X).t = (mt ^ 2 + mr ^ 2 - t) / (2 * mt) := by
    simp only [sub_t, add_t, hXt]
    unfold labE target
    dsimp only
    field_simp
    ring
  refine ⟨⟨hm2, hXt ▸ hE, ?_, ?_⟩, hT⟩
  · rw [m2_sub, m2_target, hm2]
    have e : mdot (beam + target mt) X = mdot X beam + mt * X.t := by
      unfold mdot target
      simp only [add_x, add_y, add_z, add_t]
      ring
    have h4 : 2 * mt * labE beam mt mr t = 2 * mt * beam.t + (mt ^ 2 - mr ^ 2 + t) := by
      unfold labE
      field_simp
    rw [e, hXt]
    rw [mandelT_eq, hm2] at hT
    linear_combination hT - h4
  · rw [hrec]
    exact div_nonneg (by linarith [tmax_recoil c hmt hP.energy]) (by linarith)

theorem labE_sq_ge {beam : LV} {mt mx mr : ℝ} (hP : Physical beam mt mx mr) {W ex px eb pb : ℝ}
    (c : CM beam mt mx mr W ex px eb pb) {t : ℝ} (ht : tmin beam mx ex px eb pb ≤ t)
    (ht' : t ≤ tmax beam mx ex px eb pb) : 0 ≤ labE beam mt mr t ^ 2 - mx ^ 2 ∧
      num beam mt mx mr t ^ 2 ≤ (2 * beam.P * Real.sqrt (labE beam mt mr t ^ 2 - mx ^ 2)) ^ 2 := by
  have hmt := hP.targetMass
  have q := quad hmt c t
  have hpos : 0 < W ^ 2 / mt ^ 2 := by have := c.hW; positivity
  have h1 : W ^ 2 / mt ^ 2 * ((t - tmax beam mx ex px eb pb) * (t - tmin beam mx ex px eb pb)) ≤ 0 :=
    mul_nonpos_of_nonneg_of_nonpos hpos.le
      (mul_nonpos_of_nonpos_of_nonneg (by linarith) (by linarith))
  rw [← q] at h1
  have h2 : 0 ≤ 4 * beam.P ^ 2 * (labE beam mt mr t ^ 2 - mx ^ 2) := by
    nlinarith [sq_nonneg (num beam mt mx mr t)]
  have hm := hP.moving
  have h3 : 0 ≤ labE beam mt mr t ^ 2 - mx ^ 2 :=
    nonneg_of_mul_nonneg_right h2 (by positivity)
  refine ⟨h3, ?_⟩
  rw [mul_pow, mul_pow, Real.sq_sqrt h3]
  linarith

/-- the calculation succeeds for every possible momentum transfer -/
theorem finish_spec {beam : LV} {mt mx mr : ℝ} (hP : Physical beam mt mx mr) {W ex px eb pb : ℝ}
    (c : CM beam mt mx mr W ex px eb pb) {t' : ℝ} (phi : ℝ) (h0 : 0 ≤ t')
    (ht : tmin beam mx ex px eb pb ≤ tmax beam mx ex px eb pb - t')
    (hmv : t' = 0 ∨ labE beam mt mr (tmax beam mx ex px eb pb - t') ^ 2 ≠ mx ^ 2) :
    ∃ X, finish beam mt mx mr (tmax beam mx ex px eb pb - t') t' phi = some X ∧
      Allowed beam mt mx mr X ∧ mandelT beam X = tmax beam mx ex px eb pb - t' := by
  have hmt := hP.targetMass
  have ht' : tmax beam mx ex px eb pb - t' ≤ tmax beam mx ex px eb pb := by linarith
  obtain ⟨h1, h2⟩ := labE_sq_ge hP c ht ht'
  have hPm := hP.moving
  have hp : Real.sqrt (labE beam mt mr (tmax beam mx ex px eb pb - t') ^ 2 - mx ^ 2) ^ 2
      = labE beam mt mr (tmax beam mx ex px eb pb - t') ^ 2 - mx ^ 2 := Real.sq_sqrt h1
  have hp0 := Real.sqrt_nonneg (labE beam mt mr (tmax beam mx ex px eb pb - t') ^ 2 - mx ^ 2)
  unfold finish
  rw [sqrt?_of h1, Option.bind_some]
  by_cases hz : t' = 0
  · rw [if_pos hz, Option.bind_some, sqrt?_of (by norm_num), Option.bind_some]
    refine ⟨_, rfl, ?_⟩
    refine allowed_of_angles hP c (cs := 1) (sn := Real.sqrt (1 - 1 * 1)) (phi := phi) ht ht' hp ?_ ?_ _
      rfl rfl
    · subst hz
      rw [sub_zero] at *
      have hn := num_tmax hmt c
      have hnn : 0 ≤ num beam mt mx mr (tmax beam mx ex px eb pb) := by
        have hb := hP.energy
        have h3 : 0 ≤ W * num beam mt mx mr (tmax beam mx ex px eb pb) := by
          rw [hn]
          have := c.hex0
          have := c.hpx0
          positivity
        exact nonneg_of_mul_nonneg_right h3 c.hW
      rw [mul_one]
      have q := quad hmt c (tmax beam mx ex px eb pb)
      rw [sub_self, zero_mul, mul_zero, ← hp] at q
      refine (pow_left_inj₀ hnn (by positivity) two_ne_zero).mp ?_
      linear_combination q
    · norm_num
  · rcases hmv with hmv | hmv
    · exact absurd hmv hz
    rw [if_neg hz]
    have hpne : Real.sqrt (labE beam mt mr (tmax beam mx ex px eb pb - t') ^ 2 - mx ^ 2) ≠ 0 := by
      intro h
      rw [h] at hp
      exact hmv (by linarith)
    generalize Real.sqrt (labE beam mt mr (tmax beam mx ex px eb pb - t') ^ 2 - mx ^ 2) = p at *
    have hppos : 0 < p := lt_of_le_of_ne hp0 (Ne.symm hpne)
    rw [div?_of (by positivity), Option.bind_some]
    have hcs : num beam mt mx mr (tmax beam mx ex px eb pb - t') / (2 * beam.P * p)
        * (num beam mt mx mr (tmax beam mx ex px eb pb - t') / (2 * beam.P * p)) ≤ 1 := by
      rw [← sq, div_pow]
      exact (div_le_one (by positivity)).mpr h2
    rw [sqrt?_of (by linarith), Option.bind_some]
    refine ⟨_, rfl, ?_⟩
    refine allowed_of_angles hP c (p := p) (cs := num beam mt mx mr (tmax beam mx ex px eb pb - t')
      / (2 * beam.P * p)) (phi := phi) ht ht' hp ?_ ?_ _ rfl rfl
    · field_simp
    · rw [Real.sq_sqrt (by linarith)]
      ring

/-- the largest possible momentum transfer -/
theorem tmax_greatest {beam : LV} {mt mx mr : ℝ} (hP : Physical beam mt mx mr) {W ex px eb pb : ℝ}
    (c : CM beam mt mx mr W ex px eb pb) :
    IsGreatest {t | ∃ X', Allowed beam mt mx mr X' ∧ t = mandelT beam X'}
      (tmax beam mx ex px eb pb) := by
  constructor
  · obtain ⟨X, _, hX, hT⟩ := finish_spec hP c 0 (le_refl 0)
      (by rw [sub_zero]; exact tmin_le_tmax c) (Or.inl rfl)
    exact ⟨X, hX, by rw [hT, sub_zero]⟩
  · rintro t ⟨X, hX, rfl⟩
    exact (allowed_range hP hX c).2

theorem isTPrime_iff {beam : LV} {mt mx mr : ℝ} (hP : Physical beam mt mx mr) {W ex px eb pb : ℝ}
    (c : CM beam mt mx mr W ex px eb pb) (X : LV) (t' : ℝ) :
    IsTPrime beam mt mx mr X t' ↔ mandelT beam X = tmax beam mx ex px eb pb - t' := by
  have hg := tmax_greatest hP c
  constructor
  · rintro ⟨t0, h0, h⟩
    rw [h, h0.unique hg]
  · intro h
    exact ⟨_, hg, h⟩

/-- **C44.** For every physical beam, masses and every `t'` that any outgoing system `X'` of the reaction
that moves in the laboratory (or the forward one, `t' = 0`) can have, and every azimuth: the generator
finds an X that has the given mass, leaves a recoil particle of the given mass, and has the given `t'`. -/
theorem xSystem_spec {beam : LV} {mt mx mr : ℝ} (hP : Physical beam mt mx mr) {t' : ℝ} (X' : LV)
    (hX : Allowed beam mt mx mr X') (ht : IsTPrime beam mt mx mr X' t') (hmv : t' = 0 ∨ X'.P ≠ 0)
    (phi : ℝ) :
    ∃ X, calculateXSystemLab beam mt mx mr (beam + target mt).m2 t' phi = some X ∧
      Allowed beam mt mx mr X ∧ IsTPrime beam mt mx mr X t' := by
  have c := cm_of hP
  have hT := (isTPrime_iff hP c X' t').mp ht
  obtain ⟨r1, r2⟩ := allowed_range hP hX c
  rw [hT] at r1 r2
  rw [calc_eq hP]
  obtain ⟨X, e, hA, hm⟩ := finish_spec hP c phi (by linarith) r1 (by
    rcases hmv with h | h
    · exact Or.inl h
    · right
      rw [← hT, ← allowed_energy hP.targetMass hX, ← hX.1]
      intro h0
      apply h
      have := P_sq X'
      rw [h0, sub_self] at this
      exact pow_eq_zero_iff two_ne_zero |>.mp this)
  exact ⟨X, e, hA, (isTPrime_iff hP c X t').mpr hm⟩

/-- **C44, converse.** If the calculation gives numbers, `t'` is possible: a `t'` beyond the kinematic
limit always ends in NaN components (`event()` does not check it). -/
theorem xSystem_complete {beam : LV} {mt mx mr : ℝ} (hP : Physical beam mt mx mr) {t' : ℝ} (h0 : 0 ≤ t')
    {phi : ℝ} {X : LV}
    (h : calculateXSystemLab beam mt mx mr (beam + target mt).m2 t' phi = some X) :
    Allowed beam mt mx mr X ∧ IsTPrime beam mt mx mr X t' := by
  have c := cm_of hP
  have hmt := hP.targetMass
  rw [calc_eq hP] at h
  by_cases hr : tmin beam mx (cmEx beam mt mx mr) (cmPx beam mt mx mr) (cmEb beam mt) (cmPb beam mt)
      ≤ tmax beam mx (cmEx beam mt mx mr) (cmPx beam mt mx mr) (cmEb beam mt) (cmPb beam mt) - t'
  · by_cases hmv : t' = 0 ∨ labE beam mt mr (tmax beam mx (cmEx beam mt mx mr) (cmPx beam mt mx mr)
        (cmEb beam mt) (cmPb beam mt) - t') ^ 2 ≠ mx ^ 2
    · obtain ⟨X', e, hA, hm⟩ := finish_spec hP c phi h0 hr hmv
      rw [e] at h
      cases h
      exact ⟨hA, (isTPrime_iff hP c _ t').mpr hm⟩
    · push Not at hmv
      exfalso
      unfold finish at h
      rw [hmv.2, sub_self, sqrt?_of (le_refl 0), Option.bind_some, if_neg hmv.1, Real.sqrt_zero] at h
      rw [show div? _ (2 * beam.P * 0) = none from if_pos (mul_zero _)] at h
      cases h
  · exfalso
    have hr := not_le.mp hr
    have hle := tmin_le_tmax c
    have hz : t' ≠ 0 := by
      rintro rfl
      linarith
    have q := quad hmt c (tmax beam mx (cmEx beam mt mx mr) (cmPx beam mt mx mr) (cmEb beam mt)
      (cmPb beam mt) - t')
    have hpos : 0 < cmW beam mt ^ 2 / mt ^ 2 := by have := c.hW; positivity
    have hpos2 := mul_pos hpos (mul_pos_of_neg_of_neg
      (show tmax beam mx (cmEx beam mt mx mr) (cmPx beam mt mx mr) (cmEb beam mt) (cmPb beam mt) - t'
        - tmax beam mx (cmEx beam mt mx mr) (cmPx beam mt mx mr) (cmEb beam mt) (cmPb beam mt) < 0 by
          linarith)
      (show tmax beam mx (cmEx beam mt mx mr) (cmPx beam mt mx mr) (cmEb beam mt) (cmPb beam mt) - t'
        - tmin beam mx (cmEx beam mt mx mr) (cmPx beam mt mx mr) (cmEb beam mt) (cmPb beam mt) < 0 by
          linarith))
    rw [← q] at hpos2
    generalize tmax beam mx (cmEx beam mt mx mr) (cmPx beam mt mx mr) (cmEb beam mt)
      (cmPb beam mt) - t' = t at h hpos2
    unfold finish at h
    obtain ⟨p, hp, h⟩ := Option.bind_eq_some_iff.mp h
    obtain ⟨cs, hcs, h⟩ := Option.bind_eq_some_iff.mp h
    obtain ⟨sn, hsn, h⟩ := Option.bind_eq_some_iff.mp h
    rw [if_neg hz] at hcs
    unfold sqrt? at hp hsn
    unfold div? at hcs
    split at hp
    · cases hp
    rename_i hp1
    split at hcs
    · cases hcs
    rename_i hne
    split at hsn
    · cases hsn
    rename_i hs1
    have hp := Option.some.inj hp
    have hcs := Option.some.inj hcs
    have hp2 : p ^ 2 = labE beam mt mr t ^ 2 - mx ^ 2 := by
      rw [← hp, Real.sq_sqrt (not_lt.mp hp1)]
    have hc1 : cs ^ 2 ≤ 1 := by nlinarith [not_lt.mp hs1]
    have hn : num beam mt mx mr t = cs * (2 * beam.P * p) := by rw [← hcs, div_mul_cancel₀ _ hne]
    rw [hn, ← hp2] at hpos2
    have : 0 ≤ (2 * beam.P * p) ^ 2 * (1 - cs ^ 2) := mul_nonneg (sq_nonneg _) (by linarith)
    nlinarith

end Rpwa.Gen
