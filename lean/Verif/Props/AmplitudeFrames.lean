import Verif.Props.Amplitude

/-!
# Amplitudes and the choice of the laboratory frame; the two formalisms (C54)
-/

namespace Rpwa.Amp

open Rpwa.Gen Rpwa.Amp.Spec

/-! ### frame independence -/

/-- the amplitude depends on the momentum of the parent through its mass only -/
def MassOnly (F : Formalism) : Prop := ∀ b J P refl M v p p' d1 d2 l1 l2, mass p' = mass p →
  F.twoBody b J P refl M v p' d1 d2 l1 l2 = F.twoBody b J P refl M v p d1 d2 l1 l2

theorem massOnly_helicity : MassOnly helicity := by
  intro b J P refl M v p p' d1 d2 l1 l2 h
  show helTwoBody _ _ _ _ _ _ _ _ _ _ _ = helTwoBody _ _ _ _ _ _ _ _ _ _ _
  unfold helTwoBody
  rw [h]

theorem massOnly_canonical : MassOnly canonical := by
  intro b J P refl M v p p' d1 d2 l1 l2 h
  show canTwoBody _ _ _ _ _ _ _ _ _ _ _ = canTwoBody _ _ _ _ _ _ _ _ _ _ _
  unfold canTwoBody
  rw [h]

theorem map_id : ∀ t : Part, t.map id = t
  | .fs _ _ _ _ => rfl
  | .isobar J P p v d1 d2 => by
    show Part.isobar J P p v (d1.map id) (d2.map id) = _
    rw [map_id d1, map_id d2]

theorem mapFs_map (R h : LV → LV) : ∀ t : Part, ((t.map R).mapFs h).calcIsobarLz = (t.mapFs fun p => h (R p)).calcIsobarLz
  | .fs _ _ _ _ => rfl
  | .isobar J P p v d1 d2 => by
    show Part.isobar J P (((d1.map R).mapFs h).calcIsobarLz.lz + ((d2.map R).mapFs h).calcIsobarLz.lz) v
      ((d1.map R).mapFs h).calcIsobarLz ((d2.map R).mapFs h).calcIsobarLz = _
    rw [mapFs_map R h d1, mapFs_map R h d2]
    rfl

/-- `R` leads to a frame with the same Gottfried-Jackson frame -/
structure SameGJ (R : LV → LV) (beam X : LV) : Prop where
  frame : Frame R
  same : ∀ p, gjTransform (R beam) (R X) (R p) = gjTransform beam X p

theorem Spec.Frame.time_like {R : LV → LV} (hR : Frame R) (p : LV) : (R p).m2 = p.m2 := hR.keeps_prod p p

theorem change_map {R : LV → LV} {beam : LV} {X : XDecay} (hR : SameGJ R beam X.lz) (hm : 0 < X.lz.m2) (ht : 0 < X.lz.t)
    (ht' : 0 < (R X.lz).t) (s : LV → LV) :
    changeInGJ (R beam) s (X.on (Part.map R)) = (changeInGJ beam s X).on (Part.map R) := by
  have hlz : (X.on (Part.map R)).lz = R X.lz := by
    show (X.d1.map R).lz + (X.d2.map R).lz = _
    rw [Part.map_lz, Part.map_lz, ← hR.frame.map_add]
    rfl
  obtain ⟨hT, -⟩ := gj_rest (beam := beam) hm ht
  obtain ⟨hT', -⟩ := gj_rest (beam := R beam) (X := R X.lz) (by rw [hR.frame.time_like]; exact hm) ht'
  have hinv : ∀ q, inverse (gjTransform (R beam) (R X.lz)) q = R (inverse (gjTransform beam X.lz) q) := by
    intro q
    refine hT'.injective ?_
    rw [hT'.apply_inverse, hR.same, hT.apply_inverse]
  unfold changeInGJ
  rw [hlz]
  have key : ∀ t : Part, ((((t.map R).mapFs (gjTransform (R beam) (R X.lz))).mapFs s).mapFs
      (inverse (gjTransform (R beam) (R X.lz)))).calcIsobarLz =
      ((((t.mapFs (gjTransform beam X.lz)).mapFs s).mapFs (inverse (gjTransform beam X.lz))).calcIsobarLz).map R := by
    intro t
    rw [mapFs_mapFs, mapFs_mapFs, mapFs_map, mapFs_mapFs, mapFs_mapFs, ← calc_mapFs hR.frame.map_add, mapFs_mapFs]
    congr 2
    funext p
    rw [hR.same, hinv]
  unfold XDecay.on
  dsimp only
  rw [key, key]

theorem prepare_map {R : LV → LV} {beam : LV} {X : XDecay} {ev : ℕ → LV} (hR : SameGJ R beam (total ev X)) (hp : Physical X ev)
    (ht' : 0 < (R (total ev X)).t) (sw : Switches) :
    prepare sw (R beam) (X.on (Part.setFs fun i => R (ev i))) =
      (prepare sw beam (X.on (Part.setFs ev))).on (Part.map R) ∧
    (prepare sw beam (X.on (Part.setFs ev))).lz = total ev X := by
  have h0 : (X.on (Part.setFs fun i => R (ev i))).on Part.calcIsobarLz = (plain X ev).on (Part.map R) := by
    unfold plain XDecay.on
    dsimp only
    rw [calc_setFs hR.frame.map_add, calc_setFs hR.frame.map_add]
  have step : ∀ (b : Bool) (s : LV → LV) (Y Y' : XDecay), (∀ p q, s (p + q) = s p + s q) → (∀ m, s ⟨0, 0, 0, m⟩ = ⟨0, 0, 0, m⟩) →
      Y' = Y.on (Part.map R) → Y.lz = total ev X → Summed Y →
      (if b then changeInGJ (R beam) s Y' else Y') = (if b then changeInGJ beam s Y else Y).on (Part.map R) ∧
      (if b then changeInGJ beam s Y else Y).lz = total ev X ∧ Summed (if b then changeInGJ beam s Y else Y) := by
    intro b s Y Y' hs hs0 e hl hsum
    cases b with
    | false => exact ⟨e, hl, hsum⟩
    | true =>
      have hm : 0 < Y.lz.m2 := by rw [hl]; exact hp.mass
      have ht : 0 < Y.lz.t := by rw [hl]; exact hp.energy
      obtain ⟨g, -, hl', hs', -⟩ := changeInGJ_eq (beam := beam) hsum hm ht hs hs0
      simp only [if_true]
      refine ⟨?_, hl'.trans hl, hs'⟩
      rw [e]
      exact change_map (by rw [hl]; exact hR) hm ht (by rw [hl]; exact ht') s
  obtain ⟨a1, a2, a3⟩ := step sw.spaceInversion invert (plain X ev) _ invert_add invert_time h0 (plain_lz X ev) (summed_plain X ev)
  obtain ⟨b1, b2, b3⟩ := step sw.reflection reflY _ _ reflY_add reflY_time a1 a2 a3
  exact ⟨b1, b2⟩

/-- **C54, frame independence.** The amplitude of an event does not depend on the laboratory frame in which its momenta
are given, as long as the frames have the same Gottfried-Jackson frame; for all settings and both formalisms. -/
theorem amplitude_same_frame {F : Formalism} (hF : MassOnly F) {R : LV → LV} {beam : LV} {X : XDecay} {ev : ℕ → LV}
    (hR : SameGJ R beam (total ev X)) (hp : Physical X ev) (ht' : 0 < (R (total ev X)).t) (sw : Switches) :
    symTermAmp F sw X (R beam) (fun i => R (ev i)) = symTermAmp F sw X beam ev := by
  obtain ⟨e, hl⟩ := prepare_map hR hp ht' sw
  rw [symTermAmp_eval, symTermAmp_eval, e]
  generalize prepare sw beam (X.on (Part.setFs ev)) = Y at *
  have hlz : (Y.on (Part.map R)).lz = R Y.lz := by
    show (Y.d1.map R).lz + (Y.d2.map R).lz = _
    rw [Part.map_lz, Part.map_lz, ← hR.frame.map_add]
    rfl
  have hfr : ∀ t : Part, (t.map R).toFrames F.restFrame (gjTransform (R beam) (R Y.lz)) =
      t.toFrames F.restFrame (gjTransform beam Y.lz) := by
    intro t
    rw [frames_equivariant (r := F.restFrame) (s := id) (T := gjTransform beam Y.lz) (fun _ _ => rfl)
      (fun p => by rw [hl]; exact hR.same p), map_id]
  unfold eval
  rw [hlz]
  show topAmp F sw.reflBasis { Y with d1 := (Y.d1.map R).toFrames F.restFrame (gjTransform (R beam) (R Y.lz)),
                                      d2 := (Y.d2.map R).toFrames F.restFrame (gjTransform (R beam) (R Y.lz)) } (R Y.lz) = _
  rw [hfr, hfr]
  unfold topAmp
  have hmass : mass (R Y.lz) = mass Y.lz := mass_congr (hR.frame.time_like _)
  simp only [hF sw.reflBasis _ _ _ _ _ Y.lz (R Y.lz) _ _ _ _ hmass]
  rfl

/-- **C54, rotations.** Rotating the whole event, beam included, leaves the amplitude unchanged. -/
theorem amplitude_rotated {F : Formalism} (hF : F = helicity ∨ F = canonical) {R : LV → LV} (hR : Frame R)
    (htime : R ⟨0, 0, 0, 1⟩ = ⟨0, 0, 0, 1⟩) {beam : LV} {X : XDecay} {ev : ℕ → LV} (hp : Physical X ev)
    (h : IsGJ beam (total ev X) (gjTransform beam (total ev X)))
    (h' : IsGJ (R beam) (R (total ev X)) (gjTransform (R beam) (R (total ev X)))) (sw : Switches) :
    symTermAmp F sw X (R beam) (fun i => R (ev i)) = symTermAmp F sw X beam ev := by
  have hmo : MassOnly F := by
    rcases hF with rfl | rfl
    · exact massOnly_helicity
    · exact massOnly_canonical
  refine amplitude_same_frame hmo ⟨hR, fun p => gj_rotated hR htime h h' p⟩ hp ?_ sw
  have : (R (total ev X)).t = (total ev X).t := by
    have e := hR.keeps_prod (total ev X) ⟨0, 0, 0, 1⟩
    rw [htime] at e
    unfold prod at e
    dsimp only at e
    linarith
  rw [this]
  exact hp.energy

/-! ### sums over permutations -/

theorem amplitude_scale {F G : Formalism} {sw sw' : Switches} {X X' : XDecay} {beam beam' : LV} {ev ev' : ℕ → LV} {c : ℂ}
    (terms : List (ℂ × List ℕ))
    (h : ∀ t ∈ terms, symTermAmp F sw X beam (fun i => ev (t.2.getD i 0)) =
      c * symTermAmp G sw' X' beam' (fun i => ev' (t.2.getD i 0))) :
    amplitude F sw terms X beam ev = c * amplitude G sw' terms X' beam' ev' := by
  unfold amplitude
  have : ∀ (l : List (ℂ × List ℕ)) (a b : ℂ), (∀ t ∈ l, t ∈ terms) → a = c * b →
      l.foldl (fun amp t => amp + t.1 * symTermAmp F sw X beam fun i => ev (t.2.getD i 0)) a =
        c * l.foldl (fun amp t => amp + t.1 * symTermAmp G sw' X' beam' fun i => ev' (t.2.getD i 0)) b := by
    intro l
    induction l with
    | nil => intro a b _ hab; exact hab
    | cons t l ih =>
      intro a b hl hab
      refine ih _ _ (fun u hu => hl u (List.mem_cons_of_mem _ hu)) ?_
      beta_reduce
      rw [h t (hl t List.mem_cons_self), hab]
      ring
  exact this terms 0 0 (fun _ h => h) (by ring)

/-- **C54.** The symmetrised amplitude (sum over isospin and Bose terms) is an eigenfunction of the reflection. -/
theorem amplitude_reflection_helicity {X : XDecay} (hX : MesonicX X) (hP : ParityConservedX X) (beam : LV) (ev : ℕ → LV)
    (terms : List (ℂ × List ℕ)) (hg : ∀ t ∈ terms, Generic X beam fun i => ev (t.2.getD i 0)) :
    amplitude helicity { reflection := true } terms X beam ev =
      -(X.refl * fsParityX X : ℂ) * amplitude helicity {} terms X beam ev :=
  amplitude_scale terms fun t ht => helicity_reflection hX hP beam _ false (hg t ht)

theorem amplitude_reflection_canonical {X : XDecay} (hX : MesonicX X) (hP : ParityConservedX X) (beam : LV) (ev : ℕ → LV)
    (terms : List (ℂ × List ℕ)) (hp : ∀ t ∈ terms, Physical X fun i => ev (t.2.getD i 0)) :
    amplitude canonical { reflection := true } terms X beam ev =
      -(X.refl * fsParityX X : ℂ) * amplitude canonical {} terms X beam ev :=
  amplitude_scale terms fun t ht => canonical_reflection hX hP beam _ false (hp t ht)

/-- **C54.** Inversion of the symmetrised amplitude. -/
theorem amplitude_inversion_helicity {X : XDecay} (hX : MesonicX X) (hP : ParityConservedX X) (beam : LV) (ev : ℕ → LV)
    (c : Bool) (terms : List (ℂ × List ℕ)) (hg : ∀ t ∈ terms, Generic X beam fun i => ev (t.2.getD i 0)) :
    amplitude helicity { reflBasis := c, spaceInversion := true } terms X beam ev =
      (X.P * fsParityX X : ℂ) * amplitude helicity { reflBasis := c } terms X beam ev :=
  amplitude_scale terms fun t ht => helicity_inversion hX hP beam _ c (hg t ht)

theorem amplitude_inversion_canonical {X : XDecay} (hX : MesonicX X) (hP : ParityConservedX X) (beam : LV) (ev : ℕ → LV)
    (c : Bool) (terms : List (ℂ × List ℕ)) (hp : ∀ t ∈ terms, Physical X fun i => ev (t.2.getD i 0)) :
    amplitude canonical { reflBasis := c, spaceInversion := true } terms X beam ev =
      (X.P * fsParityX X : ℂ) * amplitude canonical { reflBasis := c } terms X beam ev :=
  amplitude_scale terms fun t ht => canonical_inversion hX hP beam _ c (hp t ht)

theorem fsParity_unit : ∀ {t : Part}, ParityConserved t → fsParity t * fsParity t = 1
  | .fs _ P _ _, h => by
    rcases h with h | h
    · show P * P = 1; rw [h]; norm_num
    · show P * P = 1; rw [h]; norm_num
  | .isobar _ _ _ _ d1 d2, h => by
    have a := fsParity_unit h.2.1
    have b := fsParity_unit h.2.2
    show fsParity d1 * fsParity d2 * (fsParity d1 * fsParity d2) = 1
    linear_combination (fsParity d2 * fsParity d2) * a + b

theorem parity_unit {P : ℤ} (h : IsParity P) : P * P = 1 := by
  rcases h with h | h <;> rw [h] <;> norm_num

/-- **C54.** Hence the intensity of an event is the intensity of its mirror images: amplitudes of waves with the same
reflectivity get the same sign, so that also the coherent sum over them keeps its modulus. -/
theorem intensity_reflection {waves : List (ℂ × XDecay)} {refl fsP : ℤ} (hr : IsParity refl) (beam : LV) (ev : ℕ → LV)
    (terms : List (ℂ × List ℕ))
    (hw : ∀ w ∈ waves, MesonicX w.2 ∧ ParityConservedX w.2 ∧ w.2.refl = refl ∧ fsParityX w.2 = fsP ∧
      ∀ t ∈ terms, Generic w.2 beam fun i => ev (t.2.getD i 0)) :
    ‖(waves.map fun w => w.1 * amplitude helicity { reflection := true } terms w.2 beam ev).sum‖ =
      ‖(waves.map fun w => w.1 * amplitude helicity {} terms w.2 beam ev).sum‖ := by
  by_cases hwe : waves = []
  · rw [hwe, List.map_nil, List.map_nil]
  · obtain ⟨w0, hw0⟩ := List.exists_mem_of_ne_nil waves hwe
    obtain ⟨h0, h1, h2, h3, h4⟩ := hw w0 hw0
    have hfs : fsP * fsP = 1 := by
      rw [← h3]
      unfold fsParityX
      linear_combination (fsParity w0.2.d2 * fsParity w0.2.d2) * fsParity_unit h1.left + fsParity_unit h1.right
    have e : (waves.map fun w => w.1 * amplitude helicity { reflection := true } terms w.2 beam ev).sum =
        (-(refl * fsP) : ℂ) * (waves.map fun w => w.1 * amplitude helicity {} terms w.2 beam ev).sum := by
      rw [← List.sum_map_mul_left]
      congr 1
      refine List.map_congr_left fun w hmem => ?_
      obtain ⟨a0, a1, a2, a3, a4⟩ := hw w hmem
      rw [amplitude_reflection_helicity a0 a1 beam ev terms a4, a2, a3]
      ring
    rw [e, norm_mul]
    have hn : ‖(-(refl * fsP) : ℂ)‖ = 1 := by
      have hsq : ((refl * fsP) * (refl * fsP) : ℤ) = 1 := by
        linear_combination (fsP * fsP) * parity_unit hr + hfs
      have hc : (refl * fsP : ℂ) = ((refl * fsP : ℤ) : ℂ) := by push_cast; rfl
      rw [norm_neg, hc]
      rcases mul_self_eq_one_iff.mp hsq with h | h <;> rw [h] <;> simp
    rw [hn, one_mul]

/-! ### the two formalisms agree for two spinless particles -/

theorem racah_zero_right {j m : ℤ} (h : Clebsch.Proj j m) : Clebsch.racah j m 0 0 j m = 1 := by
  obtain ⟨k, hk, hkj⟩ := h
  obtain ⟨n, rfl⟩ : ∃ n : ℕ, j = n := ⟨j.toNat, by omega⟩
  have hsel : Clebsch.Selected (n : ℤ) m 0 0 n m :=
    ⟨⟨k, hk, hkj⟩, ⟨0, by norm_num, by norm_num⟩, ⟨k, hk, hkj⟩, by omega, by omega, by omega, by omega, 0, by omega⟩
  unfold Clebsch.racah
  rw [if_pos hsel]
  obtain ⟨l, hl⟩ : ∃ l : ℕ, (n : ℤ) = k + l := ⟨n - k, by omega⟩
  have hm1 : ((n : ℤ) + m) / 2 = k := by omega
  have hm2 : ((n : ℤ) - m) / 2 = l := by omega
  have e1 : Clebsch.hfac ((n : ℤ) + n - 0) = (n.factorial : ℝ) := by
    unfold Clebsch.hfac
    rw [show (((n : ℤ) + n - 0) / 2).toNat = n by omega]
  have e2 : Clebsch.hfac ((n : ℤ) - n + 0) = 1 := by
    unfold Clebsch.hfac
    rw [show (((n : ℤ) - n + 0) / 2).toNat = 0 by omega]; simp
  have e3 : Clebsch.hfac ((n : ℤ) + 0 - n) = 1 := by
    unfold Clebsch.hfac
    rw [show (((n : ℤ) + 0 - n) / 2).toNat = 0 by omega]; simp
  have e4 : Clebsch.hfac ((n : ℤ) + 0 + n + 2) = (n + 1) * (n.factorial : ℝ) := by
    unfold Clebsch.hfac
    rw [show (((n : ℤ) + 0 + n + 2) / 2).toNat = n + 1 by omega, Nat.factorial_succ]
    push_cast; ring
  have e5 : Clebsch.hfac ((n : ℤ) + m) = (k.factorial : ℝ) := by
    unfold Clebsch.hfac; rw [hm1]; simp
  have e6 : Clebsch.hfac ((n : ℤ) - m) = (l.factorial : ℝ) := by
    unfold Clebsch.hfac; rw [hm2]; simp
  have e7 : Clebsch.hfac (0 - 0) = 1 := by unfold Clebsch.hfac; simp
  have e8 : Clebsch.hfac (0 + 0) = 1 := by unfold Clebsch.hfac; simp
  have hr : ((n : ℤ) + 0 - n).toNat / 2 + 1 = 1 := by omega
  rw [e1, e2, e3, e4, e5, e6, e7, e8, hr, Finset.sum_range_one]
  have f1 : Clebsch.rfac 0 ((0 : ℕ) : ℤ) = 1 := by unfold Clebsch.rfac; simp
  have f2 : Clebsch.rfac ((n : ℤ) + 0 - n) (-((0 : ℕ) : ℤ)) = 1 := by unfold Clebsch.rfac; simp
  have f3 : Clebsch.rfac ((n : ℤ) - m) (-((0 : ℕ) : ℤ)) = 1 / (l.factorial : ℝ) := by unfold Clebsch.rfac; rw [hm2]; simp
  have f4 : Clebsch.rfac (0 + 0) (-((0 : ℕ) : ℤ)) = 1 := by unfold Clebsch.rfac; simp
  have f5 : Clebsch.rfac ((n : ℤ) - 0 + m) ((0 : ℕ) : ℤ) = 1 / (k.factorial : ℝ) := by
    unfold Clebsch.rfac
    rw [show ((n : ℤ) - 0 + m) / 2 = k by omega]; simp
  have f6 : Clebsch.rfac ((n : ℤ) - n - 0) ((0 : ℕ) : ℤ) = 1 := by unfold Clebsch.rfac; simp
  rw [f1, f2, f3, f4, f5, f6]
  have hn : (n.factorial : ℝ) ≠ 0 := by positivity
  have hk0 : (k.factorial : ℝ) ≠ 0 := by positivity
  have hl0 : (l.factorial : ℝ) ≠ 0 := by positivity
  have hn1 : ((n : ℝ) + 1) ≠ 0 := by positivity
  have s1 : ((((n : ℤ) : ℝ)) + 1) * (n.factorial : ℝ) * 1 * 1 / ((n + 1) * (n.factorial : ℝ)) = 1 := by
    push_cast; field_simp
  have s2 : (k.factorial : ℝ) * l.factorial * l.factorial * k.factorial * 1 * 1 = (k.factorial * l.factorial) ^ 2 := by ring
  rw [s1, s2, Real.sqrt_one, Real.sqrt_sq (by positivity)]
  field_simp

theorem racah_ne_of_proj {j1 m1 j2 m2 J M : ℤ} (h : ¬ Clebsch.Selected j1 m1 j2 m2 J M) : Clebsch.racah j1 m1 j2 m2 J M = 0 := by
  unfold Clebsch.racah
  rw [if_neg h]

theorem spinLoop_single {J : ℤ} {f : ℤ → ℂ} {m : ℤ} (hm : Clebsch.Proj J m) (h : ∀ l, l ≠ m → f l = 0) : spinLoop J f = f m := by
  obtain ⟨k, hk, hkJ⟩ := hm
  rw [spinLoop_eq, Finset.sum_eq_single k]
  · rw [hk]
  · intro b _ hb
    exact h _ (by omega)
  · intro hnot
    exact absurd (Finset.mem_range.mpr (by omega)) hnot

theorem spinless_node {J P refl M : ℤ} {v : DecayVtx} (hL : 2 ∣ v.L) (hM : 2 ∣ M) (hMJ : Clebsch.Proj J M) (p : LV)
    {d1 d2 : Part} (h1 : d1.J = 0) (h2 : d2.J = 0) :
    helTwoBody false J P refl M v p d1 d2 0 0 = canTwoBody false J P refl M v p d1 d2 0 0 := by
  rw [hel_eq hM, can_eq hL, h1, h2]
  unfold helVal canVal
  by_cases hS : v.S = 0
  · rw [hS]
    have hss : Clebsch.racah 0 0 0 (-0) 0 (0 - 0) = 1 := racah_zero_right (j := 0) (m := 0) ⟨0, by norm_num, by norm_num⟩
    have hss' : Clebsch.racah 0 0 0 0 0 (0 + 0) = 1 := racah_zero_right (j := 0) (m := 0) ⟨0, by norm_num, by norm_num⟩
    rw [hss, hss']
    by_cases hJ : v.L = J
    · have hP0 : Clebsch.Proj v.L 0 := by
        obtain ⟨k, hk, hkj⟩ := hMJ
        exact ⟨(v.L / 2).toNat, by omega, by omega⟩
      have hls : Clebsch.racah v.L 0 0 (0 - 0) J (0 - 0) = 1 := by rw [← hJ]; exact racah_zero_right hP0
      rw [hls]
      have hsum := spinLoop_single (J := v.L) (m := M)
        (f := fun mL => (Clebsch.racah v.L mL 0 (0 + 0) J M : ℂ) *
          ((Real.sqrt ((v.L + 1) / (4 * Real.pi)) : ℂ) * ang d1.lz ^ (mL / 2) *
            (DFunction.wignerD v.L mL 0 (theta d1.lz.vect) : ℂ)))
        (by rw [hJ]; exact hMJ) (by
          intro l hl
          have : Clebsch.racah v.L l 0 (0 + 0) J M = 0 := by
            refine racah_ne_of_proj fun hsel => hl ?_
            have := hsel.2.2.2.1
            omega
          rw [this]
          push_cast
          ring)
      have hcg : Clebsch.racah v.L M 0 (0 + 0) J M = 1 := by
        rw [← hJ]
        exact racah_zero_right (by rw [hJ]; exact hMJ)
      rw [hsum, hcg]
      have hnorm : (Real.sqrt ((v.L : ℝ) + 1) : ℂ) = (Real.sqrt ((v.L + 1) / (4 * Real.pi)) : ℂ) * (Real.sqrt (4 * Real.pi) : ℂ) := by
        rw [← Complex.ofReal_mul, ← Real.sqrt_mul' _ (by positivity)]
        congr 2
        field_simp
      rw [hJ] at hnorm ⊢
      push_cast
      rw [hnorm]
      ring
    · have z1 : Clebsch.racah v.L 0 0 (0 - 0) J (0 - 0) = 0 := by
        refine racah_ne_of_proj fun hsel => hJ ?_
        obtain ⟨-, -, -, -, a, b, c, -⟩ := hsel
        omega
      have z2 : ∀ mL, Clebsch.racah v.L mL 0 (0 + 0) J M = 0 := by
        intro mL
        refine racah_ne_of_proj fun hsel => hJ ?_
        obtain ⟨-, -, -, -, a, b, c, -⟩ := hsel
        omega
      rw [z1]
      simp only [z2]
      have : (spinLoop v.L fun mL => ((0 : ℝ) : ℂ) * ((Real.sqrt ((v.L + 1) / (4 * Real.pi)) : ℂ) * ang d1.lz ^ (mL / 2) *
          (DFunction.wignerD v.L mL 0 (theta d1.lz.vect) : ℂ))) = 0 := by
        refine (spinLoop_congr (g := fun _ => 0) fun l _ => ?_).trans (spinLoop_zero _)
        push_cast; ring
      rw [this]
      push_cast; ring
  · have z1 : Clebsch.racah 0 0 0 (-0) v.S (0 - 0) = 0 := by
      refine racah_ne_of_proj fun hsel => hS ?_
      obtain ⟨-, -, -, -, a, b, c, -⟩ := hsel
      omega
    have z2 : Clebsch.racah 0 0 0 0 v.S (0 + 0) = 0 := by
      refine racah_ne_of_proj fun hsel => hS ?_
      obtain ⟨-, -, -, -, a, b, c, -⟩ := hsel
      omega
    rw [z1, z2]
    push_cast; ring

theorem spinLoop_none (f : ℤ → ℂ) : spinLoop 0 f = f 0 := by
  rw [spinLoop_eq]
  simp

theorem spinless_top {X : XDecay} (hX : MesonicX X) (h1 : X.d1.J = 0) (h2 : X.d2.J = 0) (p : LV) (b : Bool) :
    helTwoBody b X.J X.P X.refl X.M X.v p X.d1 X.d2 0 0 = canTwoBody b X.J X.P X.refl X.M X.v p X.d1 X.d2 0 0 := by
  have hp := proj_of_loop hX.J_even hX.M_even (by have := hX.M_nonneg; have := hX.M_le; omega) hX.M_le
  have hme := hX.M_even
  cases b with
  | false => exact spinless_node hX.L_even hX.M_even hp p h1 h2
  | true =>
    rw [hel_refl, can_refl]
    unfold reflComb
    beta_reduce
    by_cases h0 : X.M = 0
    · rw [if_pos h0, if_pos h0, spinless_node hX.L_even (dvd_zero 2) (h0 ▸ hp) p h1 h2]
    · rw [if_neg h0, if_neg h0, spinless_node hX.L_even hX.M_even hp p h1 h2,
        spinless_node hX.L_even (by omega) hp.neg p h1 h2]

theorem skel_fs {t : Part} {J P : ℤ} {i : ℕ} {p : LV} (h : skel t = skel (.fs J P i p)) : ∃ q, t = .fs J P i q := by
  cases t with
  | fs J' P' i' p' =>
    have : Part.fs J' P' i' ⟨0, 0, 0, 0⟩ = Part.fs J P i ⟨0, 0, 0, 0⟩ := h
    injection this with a b c _
    exact ⟨p', by rw [a, b, c]⟩
  | isobar => exact absurd h (by intro h; cases h)

/-- **C54, comparison of the formalisms.** For the decay of X into two spinless particles the helicity and the
canonical formalism give the same amplitude, for all settings and every event. -/
theorem formalisms_agree {X : XDecay} (hX : MesonicX X) {P1 P2 : ℤ} {i1 i2 : ℕ} {p1 p2 : LV} (h1 : X.d1 = .fs 0 P1 i1 p1)
    (h2 : X.d2 = .fs 0 P2 i2 p2) (sw : Switches) (beam : LV) (ev : ℕ → LV) :
    symTermAmp helicity sw X beam ev = symTermAmp canonical sw X beam ev := by
  rw [symTermAmp_eval, symTermAmp_eval]
  have hs := same_prepared sw beam X ev
  generalize prepare sw beam (X.on (Part.setFs ev)) = Y at *
  obtain ⟨q1, e1⟩ := skel_fs (t := Y.d1) (hs.left.trans (congrArg skel h1))
  obtain ⟨q2, e2⟩ := skel_fs (t := Y.d2) (hs.right.trans (congrArg skel h2))
  have hY := hs.mesonic hX
  have ef : ∀ F : Formalism, Y.on (Part.toFrames F.restFrame (gjTransform beam Y.lz)) =
      { Y with d1 := .fs 0 P1 i1 (gjTransform beam Y.lz q1), d2 := .fs 0 P2 i2 (gjTransform beam Y.lz q2) } := by
    intro F
    unfold XDecay.on
    rw [e1, e2]
    rfl
  have hZ := ((same_inFrames helicity beam Y).mesonic hY)
  unfold inFrames at hZ
  rw [ef helicity] at hZ
  unfold eval
  rw [ef, ef]
  have hv : ∀ F : Formalism, topAmp F sw.reflBasis
      { Y with d1 := .fs 0 P1 i1 (gjTransform beam Y.lz q1), d2 := .fs 0 P2 i2 (gjTransform beam Y.lz q2) } Y.lz =
      F.twoBody sw.reflBasis Y.J Y.P Y.refl Y.M Y.v Y.lz (.fs 0 P1 i1 (gjTransform beam Y.lz q1))
        (.fs 0 P2 i2 (gjTransform beam Y.lz q2)) 0 0 := by
    intro F
    show (spinLoop 0 fun l1 => spinLoop 0 fun l2 => F.twoBody sw.reflBasis Y.J Y.P Y.refl Y.M Y.v Y.lz
      (.fs 0 P1 i1 (gjTransform beam Y.lz q1)) (.fs 0 P2 i2 (gjTransform beam Y.lz q2)) l1 l2 * 1 * 1) = _
    rw [spinLoop_none, spinLoop_none]
    ring
  rw [hv, hv]
  exact spinless_top hZ rfl rfl Y.lz sw.reflBasis

end Rpwa.Amp
