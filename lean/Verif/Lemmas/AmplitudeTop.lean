import Verif.Lemmas.AmplitudeTree

/-!
# Amplitudes of X and modified events
-/

namespace Rpwa.Amp

open Rpwa.Gen Rpwa.Amp.Spec

/-! ### the Gottfried-Jackson transformation as a Lorentz transformation -/

theorem rotY_time (a m : ℝ) : rotY a ⟨0, 0, 0, m⟩ = ⟨0, 0, 0, m⟩ := by
  unfold rotY; ext <;> dsimp only <;> ring

/-- also for collinear beams, where it is not the Gottfried-Jackson frame -/
theorem gj_rest {beam X : LV} (hm : 0 < X.m2) (ht : 0 < X.t) :
    Frame (gjTransform beam X) ∧ gjTransform beam X X = ⟨0, 0, 0, Real.sqrt X.m2⟩ := by
  by_cases hb : beam = X
  · have e : gjTransform beam X = fun p => p.boost X.boostVector.neg := funext fun p => if_pos hb
    rw [e]
    refine ⟨frame_boost (by rw [b2_neg]; exact (b2_boostVector hm).1), ?_⟩
    exact boost_to_rest (Real.sqrt_pos.mpr hm) (Real.sq_sqrt hm.le).symm ht
  · have fA := frame_alignY (cross beam.vect X.vect)
    have hm1 : 0 < (alignY (cross beam.vect X.vect) X).m2 := by rw [fA.m2]; exact hm
    have ht1 : 0 < (alignY (cross beam.vect X.vect) X).t := ht
    have e : gjTransform beam X = fun p => rotY (-signum (beamBoosted beam X).x * theta (beamBoosted beam X).vect)
        ((alignY (cross beam.vect X.vect) p).boost (alignY (cross beam.vect X.vect) X).boostVector.neg) :=
      funext fun p => if_neg hb
    rw [e]
    refine ⟨(frame_rotY _).comp ((frame_boost (by rw [b2_neg]; exact (b2_boostVector hm1).1)).comp fA), ?_⟩
    show rotY _ _ = _
    rw [boost_to_rest (Real.sqrt_pos.mpr hm) (by rw [fA.m2, Real.sq_sqrt hm.le]) ht1, rotY_time]

theorem Spec.Frame.injective {L : LV → LV} (hL : Frame L) {p q : LV} (h : L p = L q) : p = q :=
  prod_ext fun r => by rw [← hL.keeps_prod p r, ← hL.keeps_prod q r, h]

theorem Spec.Frame.apply_inverse {L : LV → LV} (hL : Frame L) (p : LV) : L (inverse L p) = p :=
  Classical.epsilon_spec (hL.onto p)

theorem Spec.Frame.inverse_apply {L : LV → LV} (hL : Frame L) (p : LV) : inverse L (L p) = p :=
  hL.injective (hL.apply_inverse _)

/-! ### sums -/

theorem calc_setFs {R : LV → LV} (hR : ∀ p q, R (p + q) = R p + R q) (ev : ℕ → LV) :
    ∀ t : Part, (t.setFs fun i => R (ev i)).calcIsobarLz = ((t.setFs ev).calcIsobarLz).map R
  | .fs J P i p => rfl
  | .isobar J P p v d1 d2 => by
    unfold Part.setFs Part.calcIsobarLz
    rw [calc_setFs hR ev d1, calc_setFs hR ev d2, Part.map_lz, Part.map_lz, ← hR]
    rfl

theorem calc_idem : ∀ t : Part, t.calcIsobarLz.calcIsobarLz = t.calcIsobarLz
  | .fs J P i p => rfl
  | .isobar J P p v d1 d2 => by
    rw [Part.calcIsobarLz, Part.calcIsobarLz, calc_idem d1, calc_idem d2]

theorem calc_mapFs {R : LV → LV} (hR : ∀ p q, R (p + q) = R p + R q) :
    ∀ t : Part, (t.mapFs R).calcIsobarLz = t.calcIsobarLz.map R
  | .fs J P i p => rfl
  | .isobar J P p v d1 d2 => by
    unfold Part.mapFs Part.calcIsobarLz
    rw [calc_mapFs hR d1, calc_mapFs hR d2, Part.map_lz, Part.map_lz, ← hR]
    rfl

theorem mapFs_mapFs (f g : LV → LV) : ∀ t : Part, (t.mapFs f).mapFs g = t.mapFs fun p => g (f p)
  | .fs J P i p => rfl
  | .isobar J P p v d1 d2 => by
    show Part.isobar J P p v ((d1.mapFs f).mapFs g) ((d2.mapFs f).mapFs g) = _
    rw [mapFs_mapFs f g d1, mapFs_mapFs f g d2]
    rfl

/-- the momenta of the isobars are the sums of those of their daughters -/
def Summed (X : XDecay) : Prop := X.d1.calcIsobarLz = X.d1 ∧ X.d2.calcIsobarLz = X.d2

theorem changeInGJ_eq {beam : LV} {X : XDecay} (hX : Summed X) (hm : 0 < X.lz.m2) (ht : 0 < X.lz.t) {s : LV → LV}
    (hs : ∀ p q, s (p + q) = s p + s q) (hs0 : ∀ m, s ⟨0, 0, 0, m⟩ = ⟨0, 0, 0, m⟩) :
    ∃ g : LV → LV, changeInGJ beam s X = X.on (Part.map g) ∧ (changeInGJ beam s X).lz = X.lz ∧
      Summed (changeInGJ beam s X) ∧
      ∀ p, gjTransform beam X.lz (g p) = s (gjTransform beam X.lz p) := by
  obtain ⟨hF, hr⟩ := gj_rest (beam := beam) hm ht
  have hadd : ∀ p q, inverse (gjTransform beam X.lz) (s (gjTransform beam X.lz (p + q))) =
      inverse (gjTransform beam X.lz) (s (gjTransform beam X.lz p)) +
        inverse (gjTransform beam X.lz) (s (gjTransform beam X.lz q)) := by
    intro p q
    refine hF.injective ?_
    rw [hF.map_add (inverse (gjTransform beam X.lz) _) (inverse (gjTransform beam X.lz) _), hF.apply_inverse,
      hF.apply_inverse, hF.apply_inverse, hF.map_add p q, hs]
  have e : changeInGJ beam s X =
      X.on (Part.map fun p => inverse (gjTransform beam X.lz) (s (gjTransform beam X.lz p))) := by
    unfold changeInGJ XDecay.on
    dsimp only
    rw [mapFs_mapFs, mapFs_mapFs, mapFs_mapFs, mapFs_mapFs]
    rw [calc_mapFs hadd, calc_mapFs hadd, hX.1, hX.2]
  refine ⟨_, e, ?_, ?_, fun p => hF.apply_inverse _⟩
  · rw [e]
    show (X.d1.map _).lz + (X.d2.map _).lz = _
    rw [Part.map_lz, Part.map_lz]
    refine (hadd X.d1.lz X.d2.lz).symm.trans ?_
    show inverse (gjTransform beam X.lz) (s (gjTransform beam X.lz X.lz)) = X.lz
    rw [hr, hs0, ← hr, hF.inverse_apply]
  · constructor
    · show ((X.d1.mapFs _).mapFs _ |>.mapFs _).calcIsobarLz.calcIsobarLz = _
      exact calc_idem _
    · exact calc_idem _

theorem summed_change (beam : LV) (s : LV → LV) (X : XDecay) : Summed (changeInGJ beam s X) :=
  ⟨calc_idem _, calc_idem _⟩

theorem summed_prepare (sw : Switches) (beam : LV) (X : XDecay) : Summed (prepare sw beam X) := by
  unfold prepare
  dsimp only
  split_ifs
  · exact summed_change _ _ _
  · exact summed_change _ _ _
  · exact summed_change _ _ _
  · exact ⟨calc_idem _, calc_idem _⟩

/-! ### the amplitude of X -/

/-- the amplitude of a decay with given momenta -/
noncomputable def eval (F : Formalism) (reflBasis : Bool) (beam : LV) (X : XDecay) : ℂ :=
  topAmp F reflBasis (X.on (Part.toFrames F.restFrame (gjTransform beam X.lz))) X.lz

theorem symTermAmp_eval (F : Formalism) (sw : Switches) (X : XDecay) (beam : LV) (ev : ℕ → LV) :
    symTermAmp F sw X beam ev = eval F sw.reflBasis beam (prepare sw beam (X.on (Part.setFs ev))) := rfl

theorem reflComb_mul (f M : ℤ) (A : ℤ → ℂ) (c : ℂ) : reflComb f M A * c = reflComb f M fun m => A m * c := by
  unfold reflComb
  split_ifs <;> ring

theorem reflComb_loop (f M s : ℤ) (A : ℤ → ℤ → ℂ) :
    (spinLoop s fun l => reflComb f M fun m => A m l) = reflComb f M fun m => spinLoop s fun l => A m l := by
  unfold reflComb
  split_ifs
  · exact spinLoop_zero _
  · rfl
  · rw [spinLoop_mul, spinLoop_sub, spinLoop_mul]

/-- `F` uses the reflectivity basis as linear combination -/
def HasReflBasis (F : Formalism) : Prop := ∀ J P refl M v p d1 d2 l1 l2, F.twoBody true J P refl M v p d1 d2 l1 l2 =
  reflComb (Phys.reflectivityFactor J P M refl) M fun m => F.twoBody false J P refl m v p d1 d2 l1 l2

theorem topAmp_refl {F : Formalism} (hF : HasReflBasis F) (X : XDecay) (p : LV) :
    topAmp F true X p = reflComb (Phys.reflectivityFactor X.J X.P X.M X.refl) X.M
      fun m => topAmp F false { X with M := m } p := by
  unfold topAmp
  simp only [hF X.J X.P X.refl X.M, reflComb_mul, reflComb_loop]

theorem reflFactor_eq {J P M refl : ℤ} (hP : IsParity P) (hr : IsParity refl) (hM : 0 ≤ M) (hMJ : M ≤ J) :
    (Phys.reflectivityFactor J P M refl : ℂ) = (refl : ℂ) * (P : ℂ) * sg (J - M) := by
  unfold Phys.reflectivityFactor
  have h1 : ¬ P.natAbs ≠ 1 := by rcases hP with h | h <;> rw [h] <;> decide
  have h2 : ¬ M < 0 := by omega
  have h3 : ¬ refl.natAbs ≠ 1 := by rcases hr with h | h <;> rw [h] <;> decide
  rw [if_neg h1, if_neg h2, if_neg h3]
  have ht : (J - M).tdiv 2 = (J - M) / 2 := Int.tdiv_eq_ediv_of_nonneg (by omega)
  rw [ht]
  push_cast
  congr 1
  unfold sg
  split_ifs with h
  · obtain ⟨k, hk⟩ : ∃ k, (J - M) / 2 = 2 * k := ⟨(J - M) / 2 / 2, by omega⟩
    rw [hk, zpow_mul]; norm_num
  · obtain ⟨k, hk⟩ : ∃ k, (J - M) / 2 = 2 * k + 1 := ⟨(J - M) / 2 / 2, by omega⟩
    rw [hk, zpow_add₀ (by norm_num : (-1 : ℂ) ≠ 0), zpow_mul]; norm_num

theorem parity_sq {P : ℤ} (hP : IsParity P) : (P : ℂ) * P = 1 := by
  rcases hP with h | h <;> rw [h] <;> norm_num

/-- the combination of the reflectivity basis is an eigenstate of the reflection -/
theorem reflComb_mirror {J P M refl : ℤ} (hJ : 2 ∣ J) (hMe : 2 ∣ M) (hP : IsParity P) (hr : IsParity refl) (hM : 0 ≤ M)
    (hMJ : M ≤ J) {A B : ℤ → ℂ} {k : ℂ} (hAB : ∀ m, 2 ∣ m → Clebsch.Proj J m → B m = k * sg (J - m) * A (-m)) :
    reflComb (Phys.reflectivityFactor J P M refl) M B =
      -(refl : ℂ) * P * k * reflComb (Phys.reflectivityFactor J P M refl) M A := by
  have hf := reflFactor_eq hP hr hM hMJ
  have hff : (Phys.reflectivityFactor J P M refl : ℂ) * sg (J - M) = refl * P := by
    rw [hf, mul_assoc, sg_mul_self, mul_one]
  have hf2 : (Phys.reflectivityFactor J P M refl : ℂ) * (Phys.reflectivityFactor J P M refl : ℂ) = 1 := by
    rw [hf]
    linear_combination (refl : ℂ) * refl * (P * P) * sg_mul_self (J - M) + (refl : ℂ) * refl * parity_sq hP + parity_sq hr
  have hpj : Clebsch.Proj J M := ⟨((J + M) / 2).toNat, by omega, by omega⟩
  have hpj' : Clebsch.Proj J (-M) := hpj.neg
  unfold reflComb
  generalize hfe : Phys.reflectivityFactor J P M refl = f at *
  split_ifs with h0 h1
  · ring
  · subst h0
    have hfm : (f : ℂ) = -1 := by
      have : f * f = 1 := by exact_mod_cast hf2
      rcases mul_self_eq_one_iff.mp this with h | h
      · exact absurd h h1
      · rw [h]; norm_num
    rw [hAB 0 hMe hpj, neg_zero]
    rw [hfm] at hff
    linear_combination (-k * A 0) * hff
  · rw [hAB M hMe hpj, hAB (-M) (by omega) hpj', neg_neg]
    have hs : sg (J - -M) = sg (J - M) := sg_congr (by omega)
    rw [hs]
    have h3 : sg (J - M) = f * (refl * P) := by
      rw [← hff, ← mul_assoc, hf2, one_mul]
    rw [h3]
    linear_combination (-((1 / Real.sqrt 2 : ℝ) : ℂ) * k * (refl * P) * A M) * hf2

/-! ### the two formalisms -/

noncomputable def kapX (X : XDecay) : ℂ := sg X.v.L * kap X.d1 * kap X.d2

theorem kap_frames (r : LV → LV → LV) : ∀ (t : Part) (T : LV → LV), kap (t.toFrames r T) = kap t
  | .fs _ _ _ _, _ => rfl
  | .isobar _ _ _ _ d1 d2, T => by
    unfold Part.toFrames kap
    rw [kap_frames r d1, kap_frames r d2]

theorem proj_of_loop {J M : ℤ} (hJ : 2 ∣ J) (hM : 2 ∣ M) (h0 : -J ≤ M) (h1 : M ≤ J) : Clebsch.Proj J M :=
  ⟨((J + M) / 2).toNat, by omega, by omega⟩

theorem hel_top_reflY {X : XDecay} (hX : MesonicX X) {p p' : LV} (hp : mass p' = mass p) {m : ℤ} (hm : Clebsch.Proj X.J m) :
    topAmp helicity false { X.on (Part.map reflY) with M := m } p' =
      kapX X * sg (X.J - m) * topAmp helicity false { X with M := -m } p :=
  hel_node_reflY (d1 := X.d1) (d2 := X.d2) hX.J_even hX.L_even (mesonic_J hX.left) (mesonic_J hX.right) hm hp X.P X.P X.refl X.refl
    (fun l hl => hel_reflY hX.left hl) (fun l hl => hel_reflY hX.right hl) (Part.map_lz _ _)
    (by show mass (X.d2.map reflY).lz = _; rw [Part.map_lz, mass_reflY]) (Part.map_J _ _) (Part.map_J _ _)

theorem can_top_reflY {X : XDecay} (hX : MesonicX X) {p p' : LV} (hp : mass p' = mass p) {m : ℤ} (hm : Clebsch.Proj X.J m) :
    topAmp canonical false { X.on (Part.map reflY) with M := m } p' =
      kapX X * sg (X.J - m) * topAmp canonical false { X with M := -m } p :=
  can_node_reflY (d1 := X.d1) (d2 := X.d2) hX.J_even hX.L_even hX.L_nonneg (mesonic_J hX.left) (mesonic_J hX.right)
    (proj_even hX.J_even hm) hp X.P X.P X.refl X.refl
    (fun l hl => can_reflY hX.left hl) (fun l hl => can_reflY hX.right hl) (Part.map_lz _ _)
    (by show mass (X.d2.map reflY).lz = _; rw [Part.map_lz, mass_reflY]) (Part.map_J _ _) (Part.map_J _ _)

theorem can_top_invert {X : XDecay} (hX : MesonicX X) {p p' : LV} (hp : mass p' = mass p) {m : ℤ} :
    topAmp canonical false { X.on (Part.map invert) with M := m } p' =
      kapX X * topAmp canonical false { X with M := m } p :=
  can_node_invert (d1 := X.d1) (d2 := X.d2) hX.L_even hp X.P X.P X.refl X.refl
    (fun l => can_invert hX.left l) (fun l => can_invert hX.right l) (Part.map_lz _ _)
    (by show mass (X.d2.map invert).lz = _; rw [Part.map_lz, mass_invert]) (Part.map_J _ _) (Part.map_J _ _)

theorem hel_top_invert {X : XDecay} (hX : MesonicX X) (ho1 : OffAxis X.d1) (ho2 : OffAxis X.d2) {p p' : LV}
    (hp : mass p' = mass p) {m : ℤ} (hm : Clebsch.Proj X.J m) :
    topAmp helicity false { X.on inverted with M := m } p' =
      kapX X * topAmp helicity false { X with M := m } p := by
  unfold topAmp
  show (spinLoop (inverted X.d1).J fun l1 => spinLoop (inverted X.d2).J fun l2 =>
    helTwoBody false X.J X.P X.refl m X.v p' (inverted X.d1) (inverted X.d2) l1 l2 *
      decayAmp helicity (inverted X.d1) l1 * decayAmp helicity (inverted X.d2) l2) = _ *
    spinLoop X.d1.J fun l1 => spinLoop X.d2.J fun l2 => helTwoBody false X.J X.P X.refl m X.v p X.d1 X.d2 l1 l2 *
      decayAmp helicity X.d1 l1 * decayAmp helicity X.d2 l2
  rw [inverted_J, inverted_J]
  have h1 := mesonic_J hX.left
  have h2 := mesonic_J hX.right
  have hme := proj_even hX.J_even hm
  refine sum_flip (f := fun l1 l2 => helTwoBody false X.J X.P X.refl m X.v p' (inverted X.d1) (inverted X.d2) l1 l2 *
      decayAmp helicity (inverted X.d1) l1 * decayAmp helicity (inverted X.d2) l2)
    (g := fun l1 l2 => helTwoBody false X.J X.P X.refl m X.v p X.d1 X.d2 l1 l2 *
      decayAmp helicity X.d1 l1 * decayAmp helicity X.d2 l2) fun l1 l2 hl1 hl2 => ?_
  rw [hel_eq hme, hel_eq hme, inverted_lz, inverted_lz, inverted_J, inverted_J, hp, mass_invert, mass_invert,
    helVal_invert hX.L_even hX.J_even h1 h2 hm _ _ (offAxis_lz ho1), decay_inverted hX.left ho1 hl1,
    decay_inverted hX.right ho2 hl2]
  have hs : sg (X.v.L + X.d1.J + X.d2.J) * (sg X.d1.J * sg X.d2.J) = sg X.v.L := by
    have := hX.L_even
    rw [← sg_add (by omega), ← sg_add (by omega)]
    exact sg_congr (by omega)
  unfold kapX
  linear_combination (helVal X.J m X.v (mass p) X.d1.lz (mass X.d1.lz) (mass X.d2.lz) X.d1.J X.d2.J (-l1) (-l2) *
    kap X.d1 * kap X.d2 * decayAmp helicity X.d1 (-l1) * decayAmp helicity X.d2 (-l2)) * hs

/-- inversion in either basis -/
theorem top_invert {F : Formalism} (hF : HasReflBasis F) {X X' : XDecay} {p p' : LV} {k : ℂ}
    (hq : X'.J = X.J ∧ X'.P = X.P ∧ X'.refl = X.refl ∧ X'.M = X.M) (hJ : 2 ∣ X.J) (hMe : 2 ∣ X.M) (h0 : 0 ≤ X.M) (h1 : X.M ≤ X.J)
    (h : ∀ m, Clebsch.Proj X.J m → topAmp F false { X' with M := m } p' = k * topAmp F false { X with M := m } p)
    (b : Bool) : topAmp F b X' p' = k * topAmp F b X p := by
  obtain ⟨q1, q2, q3, q4⟩ := hq
  have hp := proj_of_loop hJ hMe (by omega) h1
  cases b with
  | false =>
    have := h X.M hp
    rw [← q4] at this
    have e1 : ({ X' with M := X'.M } : XDecay) = X' := rfl
    have e2 : ({ X with M := X'.M } : XDecay) = X := by rw [q4]
    rw [e1, e2] at this
    exact this
  | true =>
    rw [topAmp_refl hF, topAmp_refl hF, q1, q2, q3, q4]
    rw [q1, q2, q3] at h
    unfold reflComb
    split_ifs with h3 h4
    · ring
    · rw [h3] at hp
      exact h 0 hp
    · have a1 := h X.M hp
      have a2 := h (-X.M) hp.neg
      beta_reduce
      rw [a1, a2]
      ring

theorem parity_kap : ∀ {t : Part}, Mesonic t → ParityConserved t → (t.P : ℂ) = fsParity t * kap t ∧ kap t * kap t = 1
  | .fs J P i p, _, _ => by
    unfold fsParity kap
    constructor
    · show (P : ℂ) = P * 1; ring
    · ring
  | .isobar J P p v d1 d2, hm, hc => by
    obtain ⟨-, hL, hL0, hm1, hm2⟩ := hm
    obtain ⟨hP, hc1, hc2⟩ := hc
    obtain ⟨a1, b1⟩ := parity_kap hm1 hc1
    obtain ⟨a2, b2⟩ := parity_kap hm2 hc2
    unfold fsParity kap
    constructor
    · show (P : ℂ) = _
      rw [hP]
      push_cast
      have : ((-1 : ℂ) ^ (v.L / 2).toNat) = sg v.L := by
        unfold sg
        rw [← zpow_natCast]
        congr 1
        omega
      rw [this, a1, a2]
      ring
    · linear_combination (kap d1 * kap d1 * (kap d2 * kap d2)) * sg_mul_self v.L + (kap d2 * kap d2) * b1 + b2

theorem parity_kapX {X : XDecay} (hX : MesonicX X) (hc : ParityConservedX X) :
    (X.P : ℂ) * kapX X = fsParityX X ∧ kapX X = X.P * fsParityX X := by
  obtain ⟨a1, b1⟩ := parity_kap hX.left hc.left
  obtain ⟨a2, b2⟩ := parity_kap hX.right hc.right
  have hL0 := hX.L_nonneg
  have hs : ((-1 : ℂ) ^ (X.v.L / 2).toNat) = sg X.v.L := by
    unfold sg
    rw [← zpow_natCast]
    congr 1
    omega
  have hP : (X.P : ℂ) = X.d1.P * X.d2.P * sg X.v.L := by
    rw [← hs, hc.top]; push_cast; ring
  have key : (X.P : ℂ) * kapX X = fsParityX X := by
    rw [hP]
    unfold kapX fsParityX
    push_cast
    rw [a1, a2]
    linear_combination (fsParity X.d1 * kap X.d1 * (fsParity X.d2 * kap X.d2) * kap X.d1 * kap X.d2) * sg_mul_self X.v.L +
      (fsParity X.d1 * fsParity X.d2 * kap X.d2 * kap X.d2) * b1 + (fsParity X.d1 * fsParity X.d2) * b2
  refine ⟨key, ?_⟩
  rw [← key, ← mul_assoc, parity_sq hX.P_sign, one_mul]

end Rpwa.Amp
