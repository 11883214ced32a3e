import Verif.Lemmas.AmplitudeTop

/-!
# Symmetries of decay amplitudes (C54)
-/

namespace Rpwa.Amp

open Rpwa.Gen Rpwa.Amp.Spec

/-! ### everything but the momenta is kept -/

/-- the tree without momenta -/
def skel (t : Part) : Part := t.map fun _ => ⟨0, 0, 0, 0⟩

theorem skel_setFs (ev : ℕ → LV) : ∀ t : Part, skel (t.setFs ev) = skel t
  | .fs _ _ _ _ => rfl
  | .isobar J P p v d1 d2 => by
    show Part.isobar J P _ v (skel (d1.setFs ev)) (skel (d2.setFs ev)) = Part.isobar J P _ v (skel d1) (skel d2)
    rw [skel_setFs ev d1, skel_setFs ev d2]

theorem skel_mapFs (f : LV → LV) : ∀ t : Part, skel (t.mapFs f) = skel t
  | .fs _ _ _ _ => rfl
  | .isobar J P p v d1 d2 => by
    show Part.isobar J P _ v (skel (d1.mapFs f)) (skel (d2.mapFs f)) = Part.isobar J P _ v (skel d1) (skel d2)
    rw [skel_mapFs f d1, skel_mapFs f d2]

theorem skel_calc : ∀ t : Part, skel t.calcIsobarLz = skel t
  | .fs _ _ _ _ => rfl
  | .isobar J P p v d1 d2 => by
    show Part.isobar J P _ v (skel d1.calcIsobarLz) (skel d2.calcIsobarLz) = Part.isobar J P _ v (skel d1) (skel d2)
    rw [skel_calc d1, skel_calc d2]

theorem skel_toFrames (r : LV → LV → LV) : ∀ (t : Part) (T : LV → LV), skel (t.toFrames r T) = skel t
  | .fs _ _ _ _, _ => rfl
  | .isobar J P p v d1 d2, T => by
    show Part.isobar J P _ v (skel (d1.toFrames r _)) (skel (d2.toFrames r _)) = Part.isobar J P _ v (skel d1) (skel d2)
    rw [skel_toFrames r d1, skel_toFrames r d2]

theorem kap_map (g : LV → LV) : ∀ t : Part, kap (t.map g) = kap t
  | .fs _ _ _ _ => rfl
  | .isobar J P p v d1 d2 => by
    show sg v.L * kap (d1.map g) * kap (d2.map g) = sg v.L * kap d1 * kap d2
    rw [kap_map g d1, kap_map g d2]

theorem mesonic_skel {t u : Part} (h : skel t = skel u) : Mesonic t ↔ Mesonic u := by
  rw [← mesonic_map (g := fun _ => ⟨0, 0, 0, 0⟩) (t := t), ← mesonic_map (g := fun _ => ⟨0, 0, 0, 0⟩) (t := u)]
  exact iff_of_eq (congrArg Mesonic h)

theorem kap_skel {t u : Part} (h : skel t = skel u) : kap t = kap u := by
  rw [← kap_map (fun _ => ⟨0, 0, 0, 0⟩) t, ← kap_map (fun _ => ⟨0, 0, 0, 0⟩) u]
  exact congrArg kap h

/-- the same decay, up to the momenta -/
structure SameDecay (X Y : XDecay) : Prop where
  J : X.J = Y.J
  P : X.P = Y.P
  refl : X.refl = Y.refl
  M : X.M = Y.M
  v : X.v = Y.v
  left : skel X.d1 = skel Y.d1
  right : skel X.d2 = skel Y.d2

theorem same_on {f : Part → Part} (h : ∀ t, skel (f t) = skel t) (X : XDecay) : SameDecay (X.on f) X :=
  ⟨rfl, rfl, rfl, rfl, rfl, h _, h _⟩

theorem SameDecay.trans {X Y Z : XDecay} (h : SameDecay X Y) (k : SameDecay Y Z) : SameDecay X Z :=
  ⟨h.J.trans k.J, h.P.trans k.P, h.refl.trans k.refl, h.M.trans k.M, h.v.trans k.v, h.left.trans k.left, h.right.trans k.right⟩

theorem same_change (beam : LV) (s : LV → LV) (X : XDecay) : SameDecay (changeInGJ beam s X) X := by
  unfold changeInGJ
  exact (same_on skel_calc _).trans ((same_on (skel_mapFs _) _).trans ((same_on (skel_mapFs _) _).trans (same_on (skel_mapFs _) _)))

theorem same_prepare (sw : Switches) (beam : LV) (X : XDecay) : SameDecay (prepare sw beam X) X := by
  unfold prepare
  dsimp only
  split_ifs
  · exact (same_change _ _ _).trans ((same_change _ _ _).trans (same_on skel_calc _))
  · exact (same_change _ _ _).trans (same_on skel_calc _)
  · exact (same_change _ _ _).trans (same_on skel_calc _)
  · exact same_on skel_calc _

theorem same_prepared (sw : Switches) (beam : LV) (X : XDecay) (ev : ℕ → LV) :
    SameDecay (prepare sw beam (X.on (Part.setFs ev))) X :=
  (same_prepare sw beam _).trans (same_on (skel_setFs ev) X)

theorem SameDecay.mesonic {X Y : XDecay} (h : SameDecay X Y) (hY : MesonicX Y) : MesonicX X := by
  obtain ⟨a1, a2, a3, a4, a5, a6, a7, a8, a9, a10⟩ := hY
  obtain ⟨b1, b2, b3, b4, b5, b6, b7⟩ := h
  exact ⟨b1 ▸ a1, b5 ▸ a2, b5 ▸ a3, b4 ▸ a4, b4 ▸ a5, by rw [b4, b1]; exact a6, b2 ▸ a7, b3 ▸ a8,
    (mesonic_skel b6).2 a9, (mesonic_skel b7).2 a10⟩

theorem SameDecay.kapX {X Y : XDecay} (h : SameDecay X Y) : kapX X = kapX Y := by
  unfold Rpwa.Amp.kapX
  rw [h.v, kap_skel h.left, kap_skel h.right]

theorem hasRefl_helicity : HasReflBasis helicity := fun J P refl M v p d1 d2 l1 l2 => hel_refl J P refl M v p d1 d2 l1 l2
theorem hasRefl_canonical : HasReflBasis canonical := fun J P refl M v p d1 d2 l1 l2 => can_refl J P refl M v p d1 d2 l1 l2

/-! ### modified events -/

theorem eval_change {F : Formalism} {beam : LV} {X : XDecay} (hX : Summed X) (hm : 0 < X.lz.m2) (ht : 0 < X.lz.t)
    {s : LV → LV} (hs : ∀ p q, s (p + q) = s p + s q) (hs0 : ∀ m, s ⟨0, 0, 0, m⟩ = ⟨0, 0, 0, m⟩) {S : Part → Part}
    (hS : ∀ t g, t = X.d1 ∨ t = X.d2 → (∀ p, gjTransform beam X.lz (g p) = s (gjTransform beam X.lz p)) →
      (Part.map g t).toFrames F.restFrame (gjTransform beam X.lz) = S (t.toFrames F.restFrame (gjTransform beam X.lz)))
    (b : Bool) :
    eval F b beam (changeInGJ beam s X) =
      topAmp F b ((X.on (Part.toFrames F.restFrame (gjTransform beam X.lz))).on S) X.lz := by
  obtain ⟨g, e, hl, -, hg⟩ := changeInGJ_eq (beam := beam) hX hm ht hs hs0
  unfold eval
  rw [hl, e]
  show topAmp F b { X with d1 := (X.d1.map g).toFrames F.restFrame (gjTransform beam X.lz),
                           d2 := (X.d2.map g).toFrames F.restFrame (gjTransform beam X.lz) } X.lz = _
  rw [hS X.d1 g (Or.inl rfl) hg, hS X.d2 g (Or.inr rfl) hg]
  rfl

theorem reflY_add (p q : LV) : reflY (p + q) = reflY p + reflY q := by
  show (⟨p.x + q.x, -(p.y + q.y), p.z + q.z, p.t + q.t⟩ : LV) = ⟨p.x + q.x, -p.y + -q.y, p.z + q.z, p.t + q.t⟩
  ext <;> dsimp only; ring

theorem invert_add (p q : LV) : invert (p + q) = invert p + invert q := by
  show (⟨-(p.x + q.x), -(p.y + q.y), -(p.z + q.z), p.t + q.t⟩ : LV) = ⟨-p.x + -q.x, -p.y + -q.y, -p.z + -q.z, p.t + q.t⟩
  ext <;> dsimp only <;> ring

theorem reflY_time (m : ℝ) : reflY ⟨0, 0, 0, m⟩ = ⟨0, 0, 0, m⟩ := by unfold reflY; ext <;> dsimp only; ring
theorem invert_time (m : ℝ) : invert ⟨0, 0, 0, m⟩ = ⟨0, 0, 0, m⟩ := by unfold invert; ext <;> dsimp only <;> ring

/-- reflection in the reflectivity basis, from that for fixed projections -/
theorem top_reflect {F : Formalism} (hF : HasReflBasis F) {X X' : XDecay} {p : LV} (hX : MesonicX X)
    (hq : X'.J = X.J ∧ X'.P = X.P ∧ X'.refl = X.refl ∧ X'.M = X.M)
    (h : ∀ m, Clebsch.Proj X.J m → topAmp F false { X' with M := m } p =
      kapX X * sg (X.J - m) * topAmp F false { X with M := -m } p) :
    topAmp F true X' p = -(X.refl : ℂ) * X.P * kapX X * topAmp F true X p := by
  obtain ⟨q1, q2, q3, q4⟩ := hq
  rw [topAmp_refl hF, topAmp_refl hF, q1, q2, q3, q4]
  rw [q1, q2, q3] at h
  exact reflComb_mirror hX.J_even hX.M_even hX.P_sign hX.refl_sign hX.M_nonneg hX.M_le
    (A := fun m => topAmp F false { X with M := m } p) fun m _ hm => h m hm

theorem prepare_reflection (b c : Bool) (beam : LV) (X : XDecay) :
    prepare { reflBasis := c, spaceInversion := b, reflection := true } beam X =
      changeInGJ beam reflY (prepare { reflBasis := c, spaceInversion := b } beam X) := rfl

theorem prepare_inversion (c : Bool) (beam : LV) (X : XDecay) :
    prepare { reflBasis := c, spaceInversion := true } beam X =
      changeInGJ beam invert (prepare { reflBasis := c } beam X) := rfl

theorem prepare_basis (c c' b r : Bool) (beam : LV) (X : XDecay) :
    prepare { reflBasis := c, spaceInversion := b, reflection := r } beam X =
      prepare { reflBasis := c', spaceInversion := b, reflection := r } beam X := rfl

/-- the frames of the particles of a prepared event -/
noncomputable def inFrames (F : Formalism) (beam : LV) (X : XDecay) : XDecay :=
  X.on (Part.toFrames F.restFrame (gjTransform beam X.lz))

theorem same_inFrames (F : Formalism) (beam : LV) (X : XDecay) : SameDecay (inFrames F beam X) X :=
  same_on (fun t => skel_toFrames _ t _) X

theorem hel_eval_reflY {X : XDecay} {beam : LV} (hs : Summed X) (hm : 0 < X.lz.m2) (ht : 0 < X.lz.t)
    (h1 : OffAxis (X.d1.toFrames hfTransform (gjTransform beam X.lz)))
    (h2 : OffAxis (X.d2.toFrames hfTransform (gjTransform beam X.lz))) (b : Bool) :
    eval helicity b beam (changeInGJ beam reflY X) =
      topAmp helicity b ((inFrames helicity beam X).on (Part.map reflY)) X.lz := by
  refine eval_change hs hm ht reflY_add reflY_time (fun t g hto hg => ?_) b
  refine frames_reflY (T := gjTransform beam X.lz) hg ?_
  rcases hto with rfl | rfl
  · exact h1
  · exact h2

theorem hel_eval_invert {X : XDecay} {beam : LV} (hs : Summed X) (hm : 0 < X.lz.m2) (ht : 0 < X.lz.t)
    (h1 : OffAxis (X.d1.toFrames hfTransform (gjTransform beam X.lz)))
    (h2 : OffAxis (X.d2.toFrames hfTransform (gjTransform beam X.lz))) (b : Bool) :
    eval helicity b beam (changeInGJ beam invert X) =
      topAmp helicity b ((inFrames helicity beam X).on inverted) X.lz := by
  refine eval_change hs hm ht invert_add invert_time (fun t g hto hg => ?_) b
  refine frames_invert (T := gjTransform beam X.lz) hg ?_
  rcases hto with rfl | rfl
  · exact h1
  · exact h2

theorem can_eval_reflY {X : XDecay} {beam : LV} (hs : Summed X) (hm : 0 < X.lz.m2) (ht : 0 < X.lz.t) (b : Bool) :
    eval canonical b beam (changeInGJ beam reflY X) =
      topAmp canonical b ((inFrames canonical beam X).on (Part.map reflY)) X.lz :=
  eval_change hs hm ht reflY_add reflY_time
    (fun t g hto hg => frames_equivariant (r := canonical.restFrame) (fun p q => boost_reflY p q) hg) b

theorem can_eval_invert {X : XDecay} {beam : LV} (hs : Summed X) (hm : 0 < X.lz.m2) (ht : 0 < X.lz.t) (b : Bool) :
    eval canonical b beam (changeInGJ beam invert X) =
      topAmp canonical b ((inFrames canonical beam X).on (Part.map invert)) X.lz :=
  eval_change hs hm ht invert_add invert_time
    (fun t g hto hg => frames_equivariant (r := canonical.restFrame) (fun p q => boost_invert p q) hg) b

/-! ### prepared events -/

theorem calc_lz (ev : ℕ → LV) : ∀ t : Part, (t.setFs ev).calcIsobarLz.lz = fsSum ev t
  | .fs _ _ _ _ => rfl
  | .isobar J P p v d1 d2 => by
    show ((d1.setFs ev).calcIsobarLz).lz + ((d2.setFs ev).calcIsobarLz).lz = fsSum ev d1 + fsSum ev d2
    rw [calc_lz ev d1, calc_lz ev d2]

/-- the event without modifications -/
def plain (X : XDecay) (ev : ℕ → LV) : XDecay := (X.on (Part.setFs ev)).on Part.calcIsobarLz

theorem plain_lz (X : XDecay) (ev : ℕ → LV) : (plain X ev).lz = total ev X := by
  show (X.d1.setFs ev).calcIsobarLz.lz + (X.d2.setFs ev).calcIsobarLz.lz = _
  rw [calc_lz, calc_lz]
  rfl

theorem summed_plain (X : XDecay) (ev : ℕ → LV) : Summed (plain X ev) := ⟨calc_idem _, calc_idem _⟩

theorem offAxis_reflY : ∀ {t : Part}, OffAxis t → OffAxis (t.map reflY)
  | .fs _ _ _ _, h => h.imp id neg_ne_zero.mpr
  | .isobar J P p v d1 d2, h => by
    obtain ⟨hm, ht, hx, h1, h2⟩ := h
    refine ⟨?_, ht, hx.imp id neg_ne_zero.mpr, offAxis_reflY h1, offAxis_reflY h2⟩
    have : (reflY p).m2 = p.m2 := prod_reflY p p
    rw [this]; exact hm

theorem offAxis_flipX {t : Part} (h : OffAxis t) : OffAxis (flipX t) := by
  cases t with
  | fs J P i p => exact h.imp neg_ne_zero.mpr id
  | isobar J P p v d1 d2 =>
    obtain ⟨hm, ht, hx, h1, h2⟩ := h
    refine ⟨?_, ht, hx.imp neg_ne_zero.mpr id, offAxis_reflY h1, offAxis_reflY h2⟩
    have : (reflX p).m2 = p.m2 := prod_reflX p p
    rw [this]; exact hm

theorem offAxis_inverted {t : Part} (h : OffAxis t) : OffAxis (inverted t) := by
  cases t with
  | fs J P i p => exact h.imp neg_ne_zero.mpr neg_ne_zero.mpr
  | isobar J P p v d1 d2 =>
    obtain ⟨hm, ht, hx, h1, h2⟩ := h
    refine ⟨?_, ht, hx.imp neg_ne_zero.mpr neg_ne_zero.mpr, offAxis_flipX h1, offAxis_flipX h2⟩
    have : (invert p).m2 = p.m2 := prod_invert p p
    rw [this]; exact hm

/-- a summed decay of a massive X, in general position -/
structure Good (beam : LV) (Y : XDecay) : Prop where
  summed : Summed Y
  m : 0 < Y.lz.m2
  t : 0 < Y.lz.t
  left : OffAxis (Y.d1.toFrames hfTransform (gjTransform beam Y.lz))
  right : OffAxis (Y.d2.toFrames hfTransform (gjTransform beam Y.lz))

theorem good_plain {X : XDecay} {beam : LV} {ev : ℕ → LV} (h : Generic X beam ev) : Good beam (plain X ev) := by
  refine ⟨summed_plain X ev, ?_, ?_, ?_, ?_⟩ <;> rw [plain_lz]
  · exact h.mass
  · exact h.energy
  · exact h.left
  · exact h.right

theorem good_invert {beam : LV} {Y : XDecay} (h : Good beam Y) : Good beam (changeInGJ beam invert Y) := by
  obtain ⟨g, e, hl, hs, hg⟩ := changeInGJ_eq (beam := beam) h.summed h.m h.t invert_add invert_time
  refine ⟨hs, by rw [hl]; exact h.m, by rw [hl]; exact h.t, ?_, ?_⟩
  · rw [hl, e]
    show OffAxis ((Y.d1.map g).toFrames hfTransform (gjTransform beam Y.lz))
    rw [frames_invert (T := gjTransform beam Y.lz) hg h.left]
    exact offAxis_inverted h.left
  · rw [hl, e]
    show OffAxis ((Y.d2.map g).toFrames hfTransform (gjTransform beam Y.lz))
    rw [frames_invert (T := gjTransform beam Y.lz) hg h.right]
    exact offAxis_inverted h.right

theorem prepare_cases (c b : Bool) (beam : LV) (X : XDecay) (ev : ℕ → LV) :
    prepare { reflBasis := c, spaceInversion := b } beam (X.on (Part.setFs ev)) =
      if b then changeInGJ beam invert (plain X ev) else plain X ev := rfl

theorem good_prepare {X : XDecay} {beam : LV} {ev : ℕ → LV} (h : Generic X beam ev) (c b : Bool) :
    Good beam (prepare { reflBasis := c, spaceInversion := b } beam (X.on (Part.setFs ev))) := by
  rw [prepare_cases]
  split_ifs
  · exact good_invert (good_plain h)
  · exact good_plain h

theorem physical_prepare {X : XDecay} {beam : LV} {ev : ℕ → LV} (h : Physical X ev) (c b : Bool) :
    (prepare { reflBasis := c, spaceInversion := b } beam (X.on (Part.setFs ev))).lz = total ev X := by
  rw [prepare_cases]
  split_ifs
  · obtain ⟨g, e, hl, hs, hg⟩ := changeInGJ_eq (beam := beam) (summed_plain X ev) (by rw [plain_lz]; exact h.mass)
      (by rw [plain_lz]; exact h.energy) invert_add invert_time
    rw [hl, plain_lz]
  · exact plain_lz X ev

theorem hel_reflect {X Y : XDecay} {beam : LV} (hX : MesonicX X) (hP : ParityConservedX X) (hsame : SameDecay Y X)
    (hsum : Summed Y) (hm : 0 < Y.lz.m2) (ht : 0 < Y.lz.t)
    (h1 : OffAxis (Y.d1.toFrames hfTransform (gjTransform beam Y.lz)))
    (h2 : OffAxis (Y.d2.toFrames hfTransform (gjTransform beam Y.lz))) :
    eval helicity true beam (changeInGJ beam reflY Y) = -(X.refl * fsParityX X : ℂ) * eval helicity true beam Y := by
  have hW := (same_inFrames helicity beam Y).trans hsame
  rw [hel_eval_reflY hsum hm ht h1 h2]
  refine (top_reflect (X := inFrames helicity beam Y) (X' := (inFrames helicity beam Y).on (Part.map reflY)) (p := Y.lz) hasRefl_helicity (hW.mesonic hX) ⟨rfl, rfl, rfl, rfl⟩
    fun m hm => hel_top_reflY (hW.mesonic hX) rfl hm).trans ?_
  rw [hW.refl, hW.P, hW.kapX]
  show _ * eval helicity true beam Y = _ * eval helicity true beam Y
  rw [← (parity_kapX hX hP).1]
  ring

theorem can_reflect {X Y : XDecay} {beam : LV} (hX : MesonicX X) (hP : ParityConservedX X) (hsame : SameDecay Y X)
    (hsum : Summed Y) (hm : 0 < Y.lz.m2) (ht : 0 < Y.lz.t) :
    eval canonical true beam (changeInGJ beam reflY Y) = -(X.refl * fsParityX X : ℂ) * eval canonical true beam Y := by
  have hW := (same_inFrames canonical beam Y).trans hsame
  rw [can_eval_reflY hsum hm ht]
  refine (top_reflect (X := inFrames canonical beam Y) (X' := (inFrames canonical beam Y).on (Part.map reflY)) (p := Y.lz) hasRefl_canonical (hW.mesonic hX) ⟨rfl, rfl, rfl, rfl⟩
    fun m hm => can_top_reflY (hW.mesonic hX) rfl hm).trans ?_
  rw [hW.refl, hW.P, hW.kapX]
  show _ * eval canonical true beam Y = _ * eval canonical true beam Y
  rw [← (parity_kapX hX hP).1]
  ring

theorem hel_inverse {X Y : XDecay} {beam : LV} (hX : MesonicX X) (hP : ParityConservedX X) (hsame : SameDecay Y X)
    (hsum : Summed Y) (hm : 0 < Y.lz.m2) (ht : 0 < Y.lz.t)
    (h1 : OffAxis (Y.d1.toFrames hfTransform (gjTransform beam Y.lz)))
    (h2 : OffAxis (Y.d2.toFrames hfTransform (gjTransform beam Y.lz))) (c : Bool) :
    eval helicity c beam (changeInGJ beam invert Y) = (X.P * fsParityX X : ℂ) * eval helicity c beam Y := by
  have hW := (same_inFrames helicity beam Y).trans hsame
  have hXW := hW.mesonic hX
  rw [hel_eval_invert hsum hm ht h1 h2]
  refine (top_invert (X := inFrames helicity beam Y) (X' := (inFrames helicity beam Y).on inverted) (p := Y.lz) (p' := Y.lz) hasRefl_helicity ⟨rfl, rfl, rfl, rfl⟩ hXW.J_even hXW.M_even
    hXW.M_nonneg hXW.M_le (fun m hm => hel_top_invert hXW h1 h2 rfl hm) c).trans ?_
  rw [hW.kapX, (parity_kapX hX hP).2]
  rfl

theorem can_inverse {X Y : XDecay} {beam : LV} (hX : MesonicX X) (hP : ParityConservedX X) (hsame : SameDecay Y X)
    (hsum : Summed Y) (hm : 0 < Y.lz.m2) (ht : 0 < Y.lz.t) (c : Bool) :
    eval canonical c beam (changeInGJ beam invert Y) = (X.P * fsParityX X : ℂ) * eval canonical c beam Y := by
  have hW := (same_inFrames canonical beam Y).trans hsame
  have hXW := hW.mesonic hX
  rw [can_eval_invert hsum hm ht]
  refine (top_invert (X := inFrames canonical beam Y) (X' := (inFrames canonical beam Y).on (Part.map invert)) (p := Y.lz) (p' := Y.lz) hasRefl_canonical ⟨rfl, rfl, rfl, rfl⟩ hXW.J_even hXW.M_even
    hXW.M_nonneg hXW.M_le (fun m _ => can_top_invert hXW rfl) c).trans ?_
  rw [hW.kapX, (parity_kapX hX hP).2]
  rfl

/-- fixed projection; `top` is the rule for the top vertex -/
theorem reflect_M {F : Formalism} {X Y : XDecay} {beam : LV} (hX : MesonicX X) (hP : ParityConservedX X) (hsame : SameDecay Y X)
    (he : eval F false beam (changeInGJ beam reflY Y) = topAmp F false ((inFrames F beam Y).on (Part.map reflY)) Y.lz)
    (top : ∀ m, Clebsch.Proj (inFrames F beam Y).J m →
      topAmp F false { (inFrames F beam Y).on (Part.map reflY) with M := m } Y.lz =
        kapX (inFrames F beam Y) * sg ((inFrames F beam Y).J - m) * topAmp F false { inFrames F beam Y with M := -m } Y.lz) :
    eval F false beam (changeInGJ beam reflY Y) =
      (X.P * fsParityX X : ℂ) * (-1) ^ ((X.J - X.M) / 2) * eval F false beam { Y with M := -X.M } := by
  have hW := (same_inFrames F beam Y).trans hsame
  rw [he]
  have hpr : Clebsch.Proj (inFrames F beam Y).J X.M :=
    hW.J ▸ proj_of_loop hX.J_even hX.M_even (by have := hX.M_nonneg; have := hX.M_le; omega) hX.M_le
  have key := top X.M hpr
  have eM : ({ (inFrames F beam Y).on (Part.map reflY) with M := X.M } : XDecay) =
      (inFrames F beam Y).on (Part.map reflY) := by
    rw [← hW.M]; rfl
  rw [eM] at key
  refine key.trans ?_
  have hs : sg ((inFrames F beam Y).J - X.M) = (-1) ^ ((X.J - X.M) / 2) := by rw [hW.J]; rfl
  rw [hW.kapX, (parity_kapX hX hP).2, hs]
  rfl

/-! ### the theorems -/

/-- **C54, reflection, helicity formalism.** With the default reflectivity basis, the amplitude of a parity-conserving
decay chain for the event reflected through the production plane is the amplitude of the event, times
`- reflectivity · product of the parities of the final-state particles`. -/
theorem helicity_reflection {X : XDecay} (hX : MesonicX X) (hP : ParityConservedX X) (beam : LV) (ev : ℕ → LV) (b : Bool)
    (hg : Generic X beam ev) :
    symTermAmp helicity { spaceInversion := b, reflection := true } X beam ev =
      -(X.refl * fsParityX X : ℂ) * symTermAmp helicity { spaceInversion := b } X beam ev := by
  have h := good_prepare hg true b
  rw [symTermAmp_eval, symTermAmp_eval, prepare_reflection]
  exact hel_reflect hX hP (same_prepared _ beam X ev) h.summed h.m h.t h.left h.right

/-- **C54, reflection, canonical formalism.** The same, for every event in which X has positive mass and energy. -/
theorem canonical_reflection {X : XDecay} (hX : MesonicX X) (hP : ParityConservedX X) (beam : LV) (ev : ℕ → LV) (b : Bool)
    (hp : Physical X ev) :
    symTermAmp canonical { spaceInversion := b, reflection := true } X beam ev =
      -(X.refl * fsParityX X : ℂ) * symTermAmp canonical { spaceInversion := b } X beam ev := by
  have h := physical_prepare (beam := beam) hp true b
  rw [symTermAmp_eval, symTermAmp_eval, prepare_reflection]
  exact can_reflect hX hP (same_prepared _ beam X ev) (summed_prepare _ beam _) (by rw [h]; exact hp.mass)
    (by rw [h]; exact hp.energy)

/-- **C54, space inversion, helicity formalism.** The amplitude for the event with all momenta inverted in the rest
frame of X is the amplitude of the event, times the parity of X and the product of the parities of the final state,
in both bases. -/
theorem helicity_inversion {X : XDecay} (hX : MesonicX X) (hP : ParityConservedX X) (beam : LV) (ev : ℕ → LV) (c : Bool)
    (hg : Generic X beam ev) :
    symTermAmp helicity { reflBasis := c, spaceInversion := true } X beam ev =
      (X.P * fsParityX X : ℂ) * symTermAmp helicity { reflBasis := c } X beam ev := by
  have h := good_prepare hg c false
  rw [symTermAmp_eval, symTermAmp_eval, prepare_inversion]
  exact hel_inverse hX hP (same_prepared _ beam X ev) h.summed h.m h.t h.left h.right c

/-- **C54, space inversion, canonical formalism.** -/
theorem canonical_inversion {X : XDecay} (hX : MesonicX X) (hP : ParityConservedX X) (beam : LV) (ev : ℕ → LV) (c : Bool)
    (hp : Physical X ev) :
    symTermAmp canonical { reflBasis := c, spaceInversion := true } X beam ev =
      (X.P * fsParityX X : ℂ) * symTermAmp canonical { reflBasis := c } X beam ev := by
  have h := physical_prepare (beam := beam) hp c false
  rw [symTermAmp_eval, symTermAmp_eval, prepare_inversion]
  exact can_inverse hX hP (same_prepared _ beam X ev) (summed_prepare _ beam _) (by rw [h]; exact hp.mass)
    (by rw [h]; exact hp.energy) c

/-- **C54, fixed spin projection.** Without the reflectivity basis the reflection exchanges the signs of the
projection: `A_M ↦ P · (product of parities) · (-1)^(J - M) · A_{-M}` (spins are doubled). -/
theorem helicity_reflection_M {X : XDecay} (hX : MesonicX X) (hP : ParityConservedX X) (beam : LV) (ev : ℕ → LV)
    (hg : Generic X beam ev) :
    symTermAmp helicity { reflBasis := false, reflection := true } X beam ev =
      (X.P * fsParityX X : ℂ) * (-1) ^ ((X.J - X.M) / 2) *
        symTermAmp helicity { reflBasis := false } { X with M := -X.M } beam ev := by
  rw [symTermAmp_eval, symTermAmp_eval, prepare_reflection]
  have hW := (same_inFrames helicity beam _).trans (same_prepared { reflBasis := false } beam X ev)
  exact reflect_M hX hP (same_prepared { reflBasis := false } beam X ev)
    (have h := good_prepare hg false false
     hel_eval_reflY h.summed h.m h.t h.left h.right false)
    fun m hm => hel_top_reflY (hW.mesonic hX) rfl hm

/-- **C54, fixed spin projection, canonical formalism.** -/
theorem canonical_reflection_M {X : XDecay} (hX : MesonicX X) (hP : ParityConservedX X) (beam : LV) (ev : ℕ → LV)
    (hp : Physical X ev) :
    symTermAmp canonical { reflBasis := false, reflection := true } X beam ev =
      (X.P * fsParityX X : ℂ) * (-1) ^ ((X.J - X.M) / 2) *
        symTermAmp canonical { reflBasis := false } { X with M := -X.M } beam ev := by
  rw [symTermAmp_eval, symTermAmp_eval, prepare_reflection]
  have hW := (same_inFrames canonical beam _).trans (same_prepared { reflBasis := false } beam X ev)
  exact reflect_M hX hP (same_prepared { reflBasis := false } beam X ev)
    (have h := physical_prepare (beam := beam) hp false false
     can_eval_reflY (summed_prepare _ beam _) (by rw [h]; exact hp.mass) (by rw [h]; exact hp.energy) false)
    fun m hm => can_top_reflY (hW.mesonic hX) rfl hm

end Rpwa.Amp
