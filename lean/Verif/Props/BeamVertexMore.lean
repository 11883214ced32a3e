import Verif.Props.BeamVertexRun
/-! Beam and vertex: smearing with a covariance matrix, and states in which the generator must not be used -/
namespace Rpwa.BeamGen
open Rpwa.Gen (V3 LV)
open MeasureTheory Set
open Rpwa.Fit (Standard standard_exists)

variable (eig : (Fin 4 → Fin 4 → ℝ) → (Fin 4 → ℝ) × (Fin 4 → Fin 4 → ℝ))

/-- **the mean of the smeared values** is the value of the file. -/
theorem smeared_mean {Ω : Type*} [MeasurableSpace Ω] {μ : Measure Ω} [IsProbabilityMeasure μ] {X : Ω → ℕ → ℝ} (hX : Standard μ 4 X) (mean : Fin 4 → ℝ)
    (cov : Fin 4 → Fin 4 → ℝ) (scale : ℝ) (i : Fin 4) : ∫ ω, multivariateGauss eig mean cov scale (X ω) i ∂μ = mean i := by
  unfold multivariateGauss
  have h : ∀ k : Fin 4, Integrable (fun ω => (eig cov).2 i k * (scale * Real.sqrt ((eig cov).1 k) * X ω k)) μ := fun k =>
    ((hX.hint k k.2).const_mul _).const_mul _
  rw [integral_add (integrable_finset_sum _ fun k _ => h k) (integrable_const _), integral_finset_sum _ fun k _ => h k]
  rw [integral_const, probReal_univ, one_smul]
  rw [Finset.sum_eq_zero, zero_add]
  intro k _
  rw [integral_const_mul, integral_const_mul, hX.hmean k k.2, mul_zero, mul_zero]

/-- **the covariance matrix of the smeared values** is that of the file times the square of the scaling factor. -/
theorem smeared_cov {Ω : Type*} [MeasurableSpace Ω] {μ : Measure Ω} {X : Ω → ℕ → ℝ} (hX : Standard μ 4 X) (mean : Fin 4 → ℝ) (cov : Fin 4 → Fin 4 → ℝ)
    (scale : ℝ) (he : IsEigen cov (eig cov).1 (eig cov).2) (i j : Fin 4) :
    ∫ ω, (multivariateGauss eig mean cov scale (X ω) i - mean i) * (multivariateGauss eig mean cov scale (X ω) j - mean j) ∂μ = scale ^ 2 * cov i j := by
  unfold multivariateGauss
  simp only [add_sub_cancel_right]
  set V := (eig cov).2
  set d := (eig cov).1
  have e : ∀ ω, (∑ k : Fin 4, V i k * (scale * Real.sqrt (d k) * X ω k)) * (∑ k : Fin 4, V j k * (scale * Real.sqrt (d k) * X ω k)) =
      ∑ k : Fin 4, ∑ l : Fin 4, (scale ^ 2 * (V i k * V j l * (Real.sqrt (d k) * Real.sqrt (d l)))) * (X ω k * X ω l) := by
    intro ω
    rw [Finset.sum_mul_sum]
    exact Finset.sum_congr rfl fun k _ => Finset.sum_congr rfl fun l _ => by ring
  simp only [e]
  have hI : ∀ k l : Fin 4, Integrable (fun ω => (scale ^ 2 * (V i k * V j l * (Real.sqrt (d k) * Real.sqrt (d l)))) * (X ω k * X ω l)) μ := fun k l =>
    (hX.hint2 k k.2 l l.2).const_mul _
  rw [integral_finset_sum _ fun k _ => integrable_finset_sum _ fun l _ => hI k l, ← he.hdecomp i j, Finset.mul_sum]
  refine Finset.sum_congr rfl fun k _ => ?_
  rw [integral_finset_sum _ fun l _ => hI k l, Finset.sum_eq_single k]
  · rw [integral_const_mul, hX.hcov k k.2 k k.2, if_pos rfl, mul_one, Real.mul_self_sqrt (he.hnonneg k)]
    ring
  · intro l _ hlk
    rw [integral_const_mul, hX.hcov k k.2 l l.2, if_neg (fun h => hlk (Fin.ext h.symm)), mul_zero]
  · intro h; exact absurd (Finset.mem_univ k) h

/-! ### misuse -/

variable (tg : Target) (b : Beam)

/-- a file that cannot be opened leaves the generator with the tree of the previous file (under the new name): events come from the previous file. -/
theorem load_missing (s : Gen) (name : String) : s.loadBeamFile name .missing = .ok (false, { s with fileName := name }) := rfl

/-- a file without tree, after a file that was loaded, removes the tree but not the mode: the next event is undefined. -/
theorem load_noTree (s : Gen) (name : String) (r : Randoms) (hm : s.mode ≠ .simple) : ∃ s', s.loadBeamFile name .noTree = .ok (false, s') ∧
    s'.event eig tg b r = .ub := by
  refine ⟨_, rfl, ?_⟩
  unfold Gen.event
  cases h : s.mode with
  | simple => exact absurd h hm
  | momenta => simp only [h]; rfl
  | momentaCorrected => simp only [h]; rfl
  | inclinations => simp only [h]; rfl

/-- a file that fails the check of the resolution parameters is used nevertheless: the mode is set. -/
theorem load_check_fails (s : Gen) (name : String) (t : Tree) (ht : ∀ b ∈ momentaBranches, b ∈ t.branches) (hm : s.pdfMean ≠ 0)
    (h0 : s.pdfSigma = 0 ∨ s.resolution = 0) : ∃ s', s.loadBeamFile name (.tree t) = .ok (false, s') ∧ Linked s' t ∧ s'.mode = .momentaCorrected := by
  unfold Gen.loadBeamFile
  dsimp only
  rw [if_pos ((has_iff _ _).2 (ht _ mem_mx))]
  unfold Gen.loadMomenta
  rw [if_neg (by rw [(all_has_iff _ _).2 ht]; decide)]
  dsimp only
  rw [if_neg hm]
  refine ⟨_, congrArg Outcome.ok (Prod.ext ?_ rfl), ⟨rfl, rfl, fun hz => ?_, Mode.noConfusion, rfl, fun _ => rfl⟩, rfl⟩
  · rw [← Bool.not_eq_true, check_iff]
    rintro ⟨_, h⟩
    obtain ⟨_, a, c⟩ := h hm
    rcases h0 with h | h
    · exact a h
    · exact c h
  · dsimp only
    rw [if_neg (by rw [hz]; decide)]

/-- with the resolution parameters set after the file was loaded, the generator keeps its mode: there is no correction, although `check` fails. -/
theorem correction_after_load (s : Gen) (res sigma mean : ℝ) (hm : s.mode = .momenta) (h : mean ≠ 0) :
    (s.setCorrection res sigma mean).mode = .momenta ∧ (s.setCorrection res sigma mean).check = false := by
  refine ⟨hm, ?_⟩
  rw [← Bool.not_eq_true, check_iff]
  rintro ⟨_, h'⟩
  have : s.mode = .momentaCorrected := (h' h).1
  rw [hm] at this
  cases this

/-- a random start without a beam file is undefined. -/
theorem randomizeStart_no_file (s : Gen) (u : ℝ) : s.randomizeStart u = .ub ↔ s.tree = none := by
  unfold Gen.randomizeStart
  cases s.tree with
  | none => exact ⟨fun _ => rfl, fun _ => rfl⟩
  | some t => exact ⟨fun h => (by cases h), fun h => (by cases h)⟩

/-- an empty tree gives the values of the previous entry (initially zero) again and again. -/
theorem empty_tree (s : Gen) (t : Tree) (u : ℝ) (h : s.tree = some t) (hn : t.rows = []) : ∃ c, s.loadNext u = .ok { s with current := c } := by
  have hg : ∀ i, s.getEntry t i = s := by
    intro i
    unfold Gen.getEntry
    rw [hn]
    by_cases hi : i < 0
    · rw [if_pos hi]
    · rw [if_neg hi]; rfl
  rw [loadNext_eq s t u h, hg, hg]
  by_cases hs : s.sequential = true
  · rw [if_pos hs]; exact ⟨_, rfl⟩
  · rw [if_neg hs]; exact ⟨_, rfl⟩

/-- taking the position along the beam from the data: refused only if no file name was ever given; with a file that could not be opened every vertex of the
simple simulation is at 0, wherever the target is. -/
theorem takeZ_without_file (s : Gen) : s.setTakeZ true = .terminate ↔ s.fileName.length = 0 := by
  unfold Gen.setTakeZ
  by_cases h : s.fileName.length = 0
  · rw [if_pos (by simp [h])]; exact ⟨fun _ => h, fun _ => rfl⟩
  · rw [if_neg (by simp [h])]; exact ⟨fun h' => (by cases h'), fun h' => absurd h' h⟩

theorem takeZ_missing_file (name : String) (hn : name.length ≠ 0) (r : Randoms) : ∃ s1 s2 s3, Gen.new.loadBeamFile name .missing = .ok (false, s1) ∧
    s1.setTakeZ true = .ok s2 ∧ s2.event eig tg b r = .ok (some s3) ∧ s3.vertex.z = 0 := by
  obtain ⟨s2, hs2⟩ : ∃ s2 : Gen, s2 = { Gen.new with fileName := name, takeZ := true } := ⟨_, rfl⟩
  have h2 : s2.mode = .simple := by rw [hs2]; rfl
  have hv : s2.vertexZ tg r.z = some 0 := by rw [hs2]; rfl
  refine ⟨{ Gen.new with fileName := name }, s2, ?_⟩
  unfold Gen.event Gen.eventSimple
  rw [h2, hv]
  refine ⟨_, rfl, ?_, rfl, rfl⟩
  rw [hs2]
  unfold Gen.setTakeZ
  rw [if_neg (by simp [hn])]

/-! ### concrete cases -/

noncomputable def exRow (p : ℝ) : Row := { Row.zero with px := p, py := 0, pz := 190, vx := 1 }
noncomputable def exTree : Tree := ⟨["vertex_x_position", "vertex_y_position", "beam_momentum_x", "beam_momentum_y", "beam_momentum_z"], [exRow 1, exRow 2, exRow 3]⟩
noncomputable def exGen : Gen := { Gen.new with sequential := true, current := 2 }

theorem exTree_usable : Usable exGen exTree := Or.inl ⟨fun b hb => hb, fun h => absurd rfl h⟩

noncomputable def exTarget : Target := ⟨0, 0, -48, 40, 2, 80⟩
noncomputable def exBeam : Beam := ⟨0.139, 190, 0, 0, 0, 0, 0⟩
/-- a random number 1 gives depth 0. -/
noncomputable def exRandoms : Randoms := ⟨1 / 2, [1], 1 / 4, 0, fun _ => 0⟩

theorem exRandoms_z (s : Gen) (h : s.takeZ = false) : s.vertexZ exTarget exRandoms.z = some (-68) := by
  unfold Gen.vertexZ
  rw [if_neg (by rw [h]; decide)]
  have : expLoop exTarget.interactionLength exTarget.length exRandoms.z = some 0 :=
    (expLoop_iff _ _ _ _).2 ⟨[], 1, [], rfl, fun y hy => (by cases hy), by rw [Real.log_one, mul_zero], by unfold exTarget; norm_num⟩
  rw [this]
  simp only [Option.map_some, exTarget]
  norm_num

/-- a run of three events with the start at the last of three entries: entries 2, 0, 1. -/
theorem ex_run : ∃ s s3, exGen.loadBeamFile "beam.root" (.tree exTree) = .ok (true, s) ∧ Linked s exTree ∧
    Gen.run eig exTarget exBeam s [exRandoms, exRandoms, exRandoms] = .ok (some s3) ∧ s3.beam.x = 2 := by
  obtain ⟨s, hs⟩ := (load_iff exGen "beam.root" (.tree exTree)).2 ⟨_, rfl, exTree_usable⟩
  obtain ⟨hl, _, hc, hq, hz, _, hm, hsig⟩ := load_linked _ _ _ _ hs
  have hmode : s.mode = .momenta := by
    rw [hm, if_pos (by decide), if_pos (show exGen.pdfMean = 0 from rfl)]
  have hns : s.sigmasPresent = false := by
    rw [← Bool.not_eq_true, hsig]
    rintro (h | h)
    · exact h (by decide)
    · exact absurd (h "vertex_x_position_sigma" (by decide)) (by decide)
  have key : ∀ rs : List Randoms, (∀ r ∈ rs, r = exRandoms) → ∀ s : Gen, s.tree = some exTree → s.mode ≠ .simple → s.takeZ = false →
      ∃ s', Gen.run eig exTarget exBeam s rs = .ok (some s') := by
    intro rs
    induction rs with
    | nil => intro _ s _ _ _; exact ⟨_, rfl⟩
    | cons r rs ih =>
      intro hr s ht hm hz
      have := hr r List.mem_cons_self
      subst this
      obtain ⟨s1, e1, e2, e3⟩ := event_file eig exTarget exBeam s exTree exRandoms ht hm
      obtain ⟨r1, c, e4⟩ := loadNext_frame s s1 exTree _ ht e1
      have hz1 : s1.takeZ = false := by rw [e4]; exact hz
      rw [exRandoms_z s1 hz1] at e3
      have hF := frame_compute eig exBeam s1 (-68) exRandoms.g
      unfold Gen.run
      rw [e3]
      refine ih (fun r hr' => hr r (List.mem_cons_of_mem _ hr')) _ ?_ ?_ ?_
      · rw [hF.htree, e4]; exact ht
      · rw [hF.hrest.2.2.1, e2]; exact hm
      · rw [hF.hset.2.1]; exact hz1
  obtain ⟨s3, h3⟩ := key [exRandoms, exRandoms, exRandoms] (by simp) s hl.htree hl.hmode (hz.trans rfl)
  have hcur : s.current = 2 := hc
  obtain ⟨row, a1, _, a2, _⟩ := run_sequential_beam eig exTarget exBeam exTree (by decide) [exRandoms, exRandoms] exRandoms s s3 hl (hq.trans rfl) hmode hns
    (by unfold exBeam; norm_num) (by rw [hcur]; decide) h3
  refine ⟨s, s3, hs, hl, h3, ?_⟩
  rw [a2]
  rw [hcur] at a1
  have : exTree.rows[1]? = some row := a1
  have h := Option.some.inj this
  rw [← h]
  rfl

/-- an eigenvalue decomposition exists for a diagonal covariance matrix. -/
theorem ex_eigen : IsEigen (fun i j => if i = j then 4 else 0) (fun _ => 4) (fun i j => if i = j then 1 else 0) := by
  refine ⟨fun i j => ?_, fun _ => by norm_num⟩
  by_cases h : i = j
  · subst h; simp
  · simp [h]

/-- uncorrelated standard random numbers exist on a probability space. -/
theorem ex_standard : ∃ X : Fin 4 × Bool → ℕ → ℝ, ∃ μ : Measure (Fin 4 × Bool), IsProbabilityMeasure μ ∧ Standard μ 4 X := by
  obtain ⟨X, hX⟩ := standard_exists 4 (by decide)
  refine ⟨X, _, ⟨?_⟩, hX⟩
  rw [Measure.smul_apply, Measure.count_univ, smul_eq_mul]
  rw [ENat.card_eq_coe_fintype_card]
  simp only [Fintype.card_prod, Fintype.card_fin, Fintype.card_bool]
  rw [show ((((4 * 2 : ℕ)) : ℕ∞) : ENNReal) = ENNReal.ofReal 8 by norm_num, ← ENNReal.ofReal_mul (by norm_num)]
  norm_num

end Rpwa.BeamGen
