import Verif.Spec.ImportanceSampler
import Verif.Props.PhaseSpaceDensity
import Verif.Props.PhaseSpaceAll
import Verif.Props.KinematicsRoundTrip
import Verif.Props.Generator
import Verif.Lemmas.AmplitudeTop
import Mathlib.Algebra.Order.ToIntervalMod
/-!
# Sampling of events according to a model
-/
namespace Rpwa.ISamp
open Rpwa.Gen Rpwa.Gen.Spec Rpwa.ISamp.Spec

private theorem sub_point {masses : List ℝ} {p M c phi : ℕ → ℝ} (h : PointOf masses p M c phi) : ∀ i < masses.length, sub masses p i = M i := by
  intro i hi
  cases i with
  | zero => rw [h.first]; rfl
  | succ i =>
    rw [← h.mass i hi]
    show p (3 * (i + 1) - 3) = _
    congr 1

/-- the sampler sets up the phase space of the point. -/
private theorem initPS_ok {masses : List ℝ} {p M c phi : ℕ → ℝ} (h2 : 2 ≤ masses.length) (h : PointOf masses p M c phi)
    (hs : ∀ i, i + 1 < masses.length → M i + masses.getD (i + 1) 0 ≤ M (i + 1)) (angles : Bool) :
    ∃ g, initPS masses p angles = .ok (some g) ∧ g.n = masses.length ∧ (g.m = fun i => masses.getD i 0) ∧ g.mSum = PS.sums g.m ∧ g.weightType = .chung ∧ g.kinType = .block ∧
      g.norm = PS.normOf .chung masses.length ∧ (∀ i < masses.length, g.M i = M i) ∧
      (angles = true → ∀ i, i + 1 < masses.length → g.cosTheta (i + 1) = c (i + 1) ∧ g.phi (i + 1) = phi (i + 1)) := by
  have hnot : ¬ ∃ i, i + 1 < masses.length ∧ sub masses p i + masses.getD (i + 1) 0 > sub masses p (i + 1) := by
    rintro ⟨i, hi, hgt⟩
    rw [sub_point h i (by omega), sub_point h (i + 1) hi] at hgt
    exact absurd (hs i hi) (not_le.2 hgt)
  have hsd : ((PS.new.setWeightType .chung).setKinematicsType .block).setDecay masses =
      ({ ((PS.new.setWeightType .chung).setKinematicsType .block : PS) with
        n := masses.length
        m := fun i => masses.getD i 0
        mSum := PS.sums fun i => masses.getD i 0
        norm := PS.normOf .chung masses.length
        M := (fun i => if i = 0 then masses.getD 0 0 else 0)
        cosTheta := (fun _ => 0)
        phi := (fun _ => 0)
        q := (fun _ => 0)
        daughters := (fun _ => 0)
        maxObserved := 0 }, true) := by
    unfold PS.setDecay
    rw [if_neg (by omega)]
    rfl
  have hMget : ∀ i < masses.length, (((List.range masses.length).map (sub masses p)).getD i 0) = M i := by
    intro i hi
    rw [List.getD_eq_getElem _ _ (by simpa using hi)]
    simp [sub_point h i hi]
  unfold initPS
  rw [hsd]
  dsimp only
  rw [if_neg (by simp), if_neg hnot]
  unfold PS.setMasses
  rw [if_neg (by simp)]
  cases angles with
  | false =>
    exact ⟨_, rfl, rfl, rfl, rfl, rfl, rfl, rfl, hMget, fun h => by cases h⟩
  | true =>
    unfold need Outcome.bind
    dsimp only
    rw [if_pos rfl]
    unfold PS.setAngles
    rw [if_neg (by simp), if_neg (by simp)]
    refine ⟨_, rfl, rfl, rfl, rfl, rfl, rfl, rfl, hMget, fun _ i hi => ⟨?_, ?_⟩⟩
    · dsimp only
      rw [List.getD_eq_getElem _ _ (by simpa using hi), ← h.cosTheta i hi]
      simp
      congr 1
    · dsimp only
      rw [List.getD_eq_getElem _ _ (by simpa using hi), ← h.phi i hi]
      simp
      congr 1

private theorem initPS_no {masses : List ℝ} {p M c phi : ℕ → ℝ} (h2 : 2 ≤ masses.length) (h : PointOf masses p M c phi)
    {i : ℕ} (hi : i + 1 < masses.length) (hlt : M (i + 1) < M i + masses.getD (i + 1) 0) (angles : Bool) : initPS masses p angles = .ok none := by
  have hyes : ∃ i, i + 1 < masses.length ∧ sub masses p i + masses.getD (i + 1) 0 > sub masses p (i + 1) :=
    ⟨i, hi, by rw [sub_point h i (by omega), sub_point h (i + 1) hi]; exact hlt⟩
  have hsd : (((PS.new.setWeightType .chung).setKinematicsType .block).setDecay masses).2 = true := by
    unfold PS.setDecay
    rw [if_neg (by omega)]
  unfold initPS
  dsimp only
  rw [hsd, if_neg (by simp), if_pos hyes]

private theorem density_congr {m M M' : ℕ → ℝ} : ∀ k, (∀ i ≤ k, M i = M' i) → density m M k = density m M' k
  | 0, _ => rfl
  | 1, h => by
    show twoBody _ _ _ = twoBody _ _ _
    rw [h 1 le_rfl, h 0 (by omega)]
  | k + 2, h => by
    show density m M (k + 1) * _ * _ = density m M' (k + 1) * _ * _
    rw [density_congr (k + 1) fun i hi => h i (by omega), h (k + 1) (by omega), h (k + 2) le_rfl]

private theorem valid_congr {n : ℕ} {m M M' : ℕ → ℝ} (h : ∀ i < n, M' i = M i) (hn : 0 < n) (hv : ValidMasses n m M) : ValidMasses n m M' :=
  ⟨hv.nonneg, by rw [h 0 hn]; exact hv.first, fun i hi => by rw [h i (by omega), h (i + 1) hi]; exact hv.step i hi, fun i hi => by rw [h (i + 1) hi]; exact hv.pos i hi⟩

private theorem mX_point {s : Sampler} {p M c phi : ℕ → ℝ} (h2 : 2 ≤ s.masses.length) (h : PointOf s.masses p M c phi) : mX s p = M (s.masses.length - 1) := by
  obtain ⟨n, hn⟩ : ∃ n, s.masses.length = n + 2 := ⟨s.masses.length - 2, by omega⟩
  have := h.mass n (by omega)
  unfold mX
  rw [hn]
  show p (3 * (n + 2) - 6) = M (n + 1)
  rw [← this]
  congr 1

/-- **The prior is phase space**: for every number of particles, every possible set of masses of the subsystems above threshold, the a-priori probability is the density of
n-body phase space in these masses, divided by `(n - 2)!`, times the prior for the mass of the X if one is set. -/
theorem prior_spec (s : Sampler) (h2 : 2 ≤ s.masses.length) {p M c phi : ℕ → ℝ} (h : PointOf s.masses p M c phi)
    (hv : ValidMasses s.masses.length (fun i => s.masses.getD i 0) M) (ht : s.masses.length = 2 ∨ s.masses.sum < M (s.masses.length - 1)) :
    logPrior s p = .ok (clog (some (density (fun i => s.masses.getD i 0) M (s.masses.length - 1) / (s.masses.length - 2).factorial *
      (match s.massPrior with | none => 1 | some f => f (M (s.masses.length - 1)))))) := by
  obtain ⟨g, hg, hn, hm, hsum, hw, _, hnorm, hM, -⟩ := initPS_ok h2 h hv.step false
  have hv' : ValidMasses g.n g.m g.M := by rw [hn, hm]; exact valid_congr hM (by omega) hv
  obtain ⟨g', e, hwt⟩ := weight_chung g (by omega) hsum hv' hw (by rw [hnorm, hn])
  have htot : g.mSum (g.n - 1) = s.masses.sum := by
    rw [hsum, hm, hn]
    exact sums_total (by omega)
  unfold logPrior
  rw [hg]
  show (need g.calcWeight).bind _ = _
  rw [e]
  show Outcome.ok _ = _
  rw [hwt, htot, hn, hm, hM _ (by omega), mX_point h2 h, density_congr _ fun i hi => hM i (by omega)]
  have hne : (M (s.masses.length - 1) - s.masses.sum) ^ (s.masses.length - 2) ≠ 0 := by
    rcases ht with h | h
    · rw [h]; simp
    · exact pow_ne_zero _ (by linarith)
  unfold div?
  rw [if_neg hne]
  have ecalc : (M (s.masses.length - 1) - s.masses.sum) ^ (s.masses.length - 2) / ((s.masses.length - 2).factorial : ℝ) *
      density (fun i => s.masses.getD i 0) M (s.masses.length - 1) / (M (s.masses.length - 1) - s.masses.sum) ^ (s.masses.length - 2) =
      density (fun i => s.masses.getD i 0) M (s.masses.length - 1) / (s.masses.length - 2).factorial := by
    have hf : ((s.masses.length - 2).factorial : ℝ) ≠ 0 := by exact_mod_cast Nat.factorial_ne_zero _
    field_simp
  rw [ecalc]
  cases s.massPrior with
  | none => simp
  | some f => rfl

/-- **Outside of the kinematic limits** the a-priori probability vanishes: as soon as one subsystem is lighter than its parts. The likelihood and the observables end the
program there. -/
theorem prior_impossible (s : Sampler) (h2 : 2 ≤ s.masses.length) {p M c phi : ℕ → ℝ} (h : PointOf s.masses p M c phi) {i : ℕ} (hi : i + 1 < s.masses.length)
    (hlt : M (i + 1) < M i + s.masses.getD (i + 1) 0) :
    logPrior s p = .ok .negInf ∧ (s.phaseSpaceOnly = false → logLikelihood s p = .terminate) ∧
      ∀ w beam t mt mr az, observables s w beam t mt mr az p = .terminate := by
  refine ⟨?_, fun hps => ?_, fun w beam t mt mr az => ?_⟩
  · unfold logPrior
    rw [initPS_no h2 h hi hlt]
    rfl
  · unfold logLikelihood decay
    rw [if_neg (by rw [hps]; simp), initPS_no h2 h hi hlt]
    rfl
  · unfold observables decay
    rw [initPS_no h2 h hi hlt]
    rfl

/-- **At threshold** the a-priori probability of more than two particles is no number (0/0). -/
theorem prior_threshold (s : Sampler) (h3 : 2 < s.masses.length) {p M c phi : ℕ → ℝ} (h : PointOf s.masses p M c phi)
    (hv : ValidMasses s.masses.length (fun i => s.masses.getD i 0) M) (ht : M (s.masses.length - 1) = s.masses.sum) : logPrior s p = .ok .nan := by
  obtain ⟨g, hg, hn, hm, hsum, hw, _, hnorm, hM, -⟩ := initPS_ok (by omega) h hv.step false
  have hv' : ValidMasses g.n g.m g.M := by rw [hn, hm]; exact valid_congr hM (by omega) hv
  obtain ⟨g', e, hwt⟩ := weight_chung g (by omega) hsum hv' hw (by rw [hnorm, hn])
  unfold logPrior
  rw [hg]
  show (need g.calcWeight).bind _ = _
  rw [e]
  show Outcome.ok _ = _
  rw [mX_point (by omega) h, ht, sub_self, zero_pow (by omega)]
  unfold div?
  rw [if_pos rfl]
  cases s.massPrior <;> rfl

/-! ## the decay at a point -/

private theorem block_congr (g g' : PS) : ∀ (k : ℕ) (P : LV) (ds ds' : ℕ → LV),
    (∀ i, i + 1 ≤ k → g.q (i + 1) = g'.q (i + 1) ∧ g.cosTheta (i + 1) = g'.cosTheta (i + 1) ∧ Real.cos (g.phi (i + 1)) = Real.cos (g'.phi (i + 1)) ∧
      Real.sin (g.phi (i + 1)) = Real.sin (g'.phi (i + 1)) ∧ g.m (i + 1) = g'.m (i + 1)) → ∀ j ≤ k, g.blockLoop k P ds j = g'.blockLoop k P ds' j := by
  intro k
  induction k with
  | zero =>
    intro P ds ds' _ j hj
    obtain rfl : j = 0 := by omega
    show Function.update ds 0 P 0 = Function.update ds' 0 P 0
    rw [Function.update_self, Function.update_self]
  | succ k ih =>
    intro P ds ds' h j hj
    obtain ⟨e1, e2, e3, e4, e5⟩ := h k le_rfl
    unfold PS.blockLoop
    dsimp only
    rw [e1, e2, e3, e4, e5]
    by_cases hjk : j = k + 1
    · subst hjk
      rw [blockLoop_frame _ _ _ _ _ (Nat.lt_succ_self k), blockLoop_frame _ _ _ _ _ (Nat.lt_succ_self k), Function.update_self, Function.update_self]
    · exact ih _ _ _ (fun i hi => h i (by omega)) j (by omega)

private theorem decay_ok (s : Sampler) (h2 : 2 ≤ s.masses.length) {p M c phi : ℕ → ℝ} (h : PointOf s.masses p M c phi)
    (hv : ValidMasses s.masses.length (fun i => s.masses.getD i 0) M) :
    ∃ g : PS, decay s p = .ok (g.calcEventKinematics ⟨0, 0, 0, M (s.masses.length - 1)⟩) ∧ g.n = s.masses.length ∧ (g.m = fun i => s.masses.getD i 0) ∧ g.kinType = .block ∧
      (∀ i < s.masses.length, g.M i = M i) ∧ (∀ i, i + 1 < s.masses.length → g.cosTheta (i + 1) = c (i + 1) ∧ g.phi (i + 1) = phi (i + 1)) ∧ Momenta g.n g.m g.M g.q ∧
      ∀ i, i + 1 < s.masses.length → Phys.breakupMomentum (M (i + 1)) (M i) (s.masses.getD (i + 1) 0) = some (g.q (i + 1)) := by
  obtain ⟨g, hg, hn, hm, hsum, hw, hk, hnorm, hM, ha⟩ := initPS_ok h2 h hv.step true
  have hv' : ValidMasses g.n g.m g.M := by rw [hn, hm]; exact valid_congr hM (by omega) hv
  obtain ⟨q, e, hq, hb⟩ := calcBreakupMomenta_spec g hv' (by omega)
  refine ⟨{ g with q := q }, ?_, hn, hm, hk, hM, ha rfl, hq, fun i hi => ?_⟩
  · unfold decay
    rw [hg]
    show (need g.calcBreakupMomenta).bind _ = _
    rw [e, mX_point h2 h]
    rfl
  · have := hb i (by omega)
    rw [hM _ hi, hM _ (by omega), hm] at this
    exact this

/-- the sampler's decay at a point. -/
private theorem decay_spec (s : Sampler) (h2 : 2 ≤ s.masses.length) {p M c phi : ℕ → ℝ} (h : PointOf s.masses p M c phi)
    (hv : ValidMasses s.masses.length (fun i => s.masses.getD i 0) M) (hc : ∀ i, i + 1 < s.masses.length → c (i + 1) ^ 2 ≤ 1) :
    ∃ g, decay s p = .ok g ∧ IsDecay s.masses.length (fun i => s.masses.getD i 0) ⟨0, 0, 0, M (s.masses.length - 1)⟩ g.daughters ∧
      SubMasses s.masses.length M g.daughters := by
  obtain ⟨g, e, hn, hm, hk, hM, ha, hq, -⟩ := decay_ok s h2 h hv
  have hv' : ValidMasses g.n g.m g.M := by rw [hn, hm]; exact valid_congr hM (by omega) hv
  obtain ⟨k1, k2⟩ := calcEventKinematics_spec g ⟨0, 0, 0, M (s.masses.length - 1)⟩ hv' hq (by omega) (fun i hi => by rw [(ha i (by omega)).1]; exact hc i (by omega))
    (by rw [hn, hM _ (by omega)]; unfold LV.m2; ring) (valid_nonneg hv _ (by omega))
  rw [hn] at k1 k2
  rw [hm] at k1
  exact ⟨_, e, k1, fun i hi => by rw [k2 i hi, hM i hi]⟩

/-- **The likelihood is the model**: for every possible point, the model is asked for the intensity of a decay of an X at rest that has the masses of the point, and the
logarithm of its answer is returned. -/
theorem likelihood_spec (s : Sampler) (h2 : 2 ≤ s.masses.length) {p M c phi : ℕ → ℝ} (h : PointOf s.masses p M c phi)
    (hv : ValidMasses s.masses.length (fun i => s.masses.getD i 0) M) (hc : ∀ i, i + 1 < s.masses.length → c (i + 1) ^ 2 ≤ 1) :
    (s.phaseSpaceOnly = true → logLikelihood s p = .ok (.fin 0)) ∧
    (s.phaseSpaceOnly = false → ∃ ds, IsDecay s.masses.length (fun i => s.masses.getD i 0) ⟨0, 0, 0, M (s.masses.length - 1)⟩ ds ∧ SubMasses s.masses.length M ds ∧
      logLikelihood s p = (s.model ((List.range s.masses.length).map fun i => (ds i).vect)).bind fun x => .ok (clog (some x))) := by
  refine ⟨fun hp => ?_, fun hp => ?_⟩
  · unfold logLikelihood
    rw [if_pos hp]
  · obtain ⟨g, e, h1, h3⟩ := decay_spec s h2 h hv hc
    refine ⟨g.daughters, h1, h3, ?_⟩
    unfold logLikelihood
    rw [if_neg (by rw [hp]; simp), e]
    rfl

private theorem prob_clog {x : ℝ} (h : 0 ≤ x) : prob (clog (some x)) = x := by
  unfold clog
  dsimp only
  by_cases h0 : x = 0
  · rw [if_pos h0]; exact h0.symm
  · rw [if_neg h0, if_neg (not_lt.2 h)]
    exact Real.exp_log (lt_of_le_of_ne h (Ne.symm h0))

/-- **What is sampled**: for every possible point above threshold, the product of the two probabilities is phase space times the prior for the mass times the intensity. -/
theorem target (s : Sampler) (h2 : 2 ≤ s.masses.length) {p M c phi : ℕ → ℝ} (h : PointOf s.masses p M c phi)
    (hv : ValidMasses s.masses.length (fun i => s.masses.getD i 0) M) (hc : ∀ i, i + 1 < s.masses.length → c (i + 1) ^ 2 ≤ 1)
    (ht : s.masses.length = 2 ∨ s.masses.sum < M (s.masses.length - 1)) (hps : s.phaseSpaceOnly = false)
    (hf : ∀ f, s.massPrior = some f → 0 ≤ f (M (s.masses.length - 1))) {I : List V3 → ℝ} (hmod : s.model = fun v => .ok (I v)) (hI : ∀ v, 0 ≤ I v) :
    ∃ ds a b, IsDecay s.masses.length (fun i => s.masses.getD i 0) ⟨0, 0, 0, M (s.masses.length - 1)⟩ ds ∧ SubMasses s.masses.length M ds ∧
      logPrior s p = .ok a ∧ logLikelihood s p = .ok b ∧
      prob a * prob b = density (fun i => s.masses.getD i 0) M (s.masses.length - 1) / (s.masses.length - 2).factorial *
        (match s.massPrior with | none => 1 | some f => f (M (s.masses.length - 1))) * I ((List.range s.masses.length).map fun i => (ds i).vect) := by
  obtain ⟨ds, h1, h3, e⟩ := (likelihood_spec s h2 h hv hc).2 hps
  refine ⟨ds, _, clog (some (I ((List.range s.masses.length).map fun i => (ds i).vect))), h1, h3, prior_spec s h2 h hv ht, ?_, ?_⟩
  · rw [e, hmod]
    rfl
  · rw [prob_clog (hI _), prob_clog]
    refine mul_nonneg (div_nonneg (density_nonneg hv _ (by omega)) (Nat.cast_nonneg _)) ?_
    cases hmp : s.massPrior with
    | none => exact zero_le_one
    | some f => exact hf f hmp

/-! ## the parameters -/

private theorem par_length (masses : List ℝ) (mMin mMax : ℝ) : (parameters masses mMin mMax).length = 3 * (masses.length - 1) := by
  unfold parameters
  rw [List.length_flatMap]
  simp
  ring

private theorem flatMap_three {α : Type} (a b c : ℕ → α) : ∀ (n i : ℕ), i < n →
    ((List.range n).flatMap fun i => [a i, b i, c i])[3 * i]? = some (a i) ∧ ((List.range n).flatMap fun i => [a i, b i, c i])[3 * i + 1]? = some (b i) ∧
      ((List.range n).flatMap fun i => [a i, b i, c i])[3 * i + 2]? = some (c i) := by
  intro n
  induction n with
  | zero => intro i hi; omega
  | succ n ih =>
    intro i hi
    have hl : ((List.range n).flatMap fun i => [a i, b i, c i]).length = 3 * n := by
      rw [List.length_flatMap]; simp; ring
    rw [List.range_succ, List.flatMap_append]
    by_cases hin : i < n
    · obtain ⟨h1, h2, h3⟩ := ih i hin
      rw [List.getElem?_append_left (by omega), List.getElem?_append_left (by omega), List.getElem?_append_left (by omega)]
      exact ⟨h1, h2, h3⟩
    · obtain rfl : i = n := by omega
      rw [List.getElem?_append_right (by omega), List.getElem?_append_right (by omega), List.getElem?_append_right (by omega), hl]
      simp

/-- **The box**: for every possible set of masses, the point is allowed by the limits of all parameters if and only if the mass of the X is in the range of the picker, the
cosines are in [-1, 1], and the azimuths in [0, 2π]; so the limits of the subsystem masses cut nothing away. -/
theorem box_iff {masses : List ℝ} (h2 : 2 ≤ masses.length) {p M c phi : ℕ → ℝ} (h : PointOf masses p M c phi)
    (hv : ValidMasses masses.length (fun i => masses.getD i 0) M) {mMin mMax : ℝ} (hr : mMin ≤ mMax) :
    (∀ k par, (parameters masses mMin mMax)[k]? = some par → Within (p k) par) ↔
      (mMin ≤ M (masses.length - 1) ∧ M (masses.length - 1) ≤ mMax) ∧
        ∀ i, i + 1 < masses.length → (-1 ≤ c (i + 1) ∧ c (i + 1) ≤ 1) ∧ (0 ≤ phi (i + 1) ∧ phi (i + 1) ≤ 2 * Real.pi) := by
  have hget := flatMap_three (fun i => massPar masses.length (i + 1) (PS.sums (fun j => masses.getD j 0) (i + 1)) mMin mMax) (fun _ => Par.range (-1) 1)
    (fun _ => Par.range 0 (2 * Real.pi)) (masses.length - 1)
  have htop : ∀ i < masses.length, PS.sums (fun j => masses.getD j 0) i ≤ M i ∧ M i ≤ M (masses.length - 1) := by
    intro i hi
    have := top_ge (g := { PS.new with n := masses.length, m := fun j => masses.getD j 0, M := M, mSum := PS.sums fun j => masses.getD j 0 }) rfl hv i hi
    refine ⟨this.1, ?_⟩
    clear this
    obtain ⟨d, hd⟩ : ∃ d, masses.length - 1 = i + d := ⟨masses.length - 1 - i, by omega⟩
    rw [hd]
    have : ∀ d, i + d < masses.length → M i ≤ M (i + d) := by
      intro d
      induction d with
      | zero => exact fun _ => le_rfl
      | succ d ih =>
        intro hd
        have h1 := ih (by omega)
        have h2 := hv.step (i + d) (by omega)
        have h3 := hv.nonneg (i + d + 1) (by omega)
        show M i ≤ M (i + d + 1)
        linarith
    exact this d (by omega)
  constructor
  · intro hw
    refine ⟨?_, fun i hi => ⟨?_, ?_⟩⟩
    · obtain ⟨n, hn⟩ : ∃ n, masses.length = n + 2 := ⟨masses.length - 2, by omega⟩
      have := hw _ _ (hget n (by omega)).1
      rw [h.mass n (by omega)] at this
      rw [show masses.length - 1 = n + 1 by omega]
      unfold massPar at this
      rw [if_pos (by omega)] at this
      by_cases he : mMin = mMax
      · rw [if_pos he] at this
        have e : M (n + 1) = mMax := this
        rw [e]
        exact ⟨hr, le_rfl⟩
      · rw [if_neg he] at this
        exact this
    · have := hw _ _ (hget i (by omega)).2.1
      rw [h.cosTheta i hi] at this
      exact this
    · have := hw _ _ (hget i (by omega)).2.2
      rw [h.phi i hi] at this
      exact this
  · rintro ⟨hm, ha⟩ k par hk
    have hkl : k < 3 * (masses.length - 1) := by
      rw [← par_length masses mMin mMax]
      exact (List.getElem?_eq_some_iff.1 hk).1
    obtain ⟨i, hi⟩ : ∃ i, i = k / 3 := ⟨_, rfl⟩
    have hil : i + 1 < masses.length := by omega
    obtain ⟨g1, g2, g3⟩ := hget i (by omega)
    rcases (show k = 3 * i ∨ k = 3 * i + 1 ∨ k = 3 * i + 2 by omega) with e | e | e
    · rw [e] at hk ⊢
      have ep := Option.some.inj (g1.symm.trans hk)
      rw [← ep, h.mass i hil]
      unfold massPar
      by_cases hin : i + 1 = masses.length - 1
      · rw [if_pos hin, hin]
        by_cases he : mMin = mMax
        · rw [if_pos he]
          exact le_antisymm hm.2 (he ▸ hm.1)
        · rw [if_neg he]
          exact hm
      · rw [if_neg hin]
        exact ⟨(htop _ hil).1, (htop _ hil).2.trans hm.2⟩
    · rw [e] at hk ⊢
      rw [← Option.some.inj (g2.symm.trans hk), h.cosTheta i hil]
      exact (ha i hil).1
    · rw [e] at hk ⊢
      rw [← Option.some.inj (g3.symm.trans hk), h.phi i hil]
      exact (ha i hil).2

/-- **Every decay can be sampled**: every decay of an X at rest with a mass in the range of the picker (all subsystems having mass) belongs to a point in the box. -/
theorem complete (s : Sampler) (h2 : 2 ≤ s.masses.length) (hm0 : ∀ i < s.masses.length, 0 ≤ s.masses.getD i 0) {mMin mMax W : ℝ} (hlo : mMin ≤ W) (hhi : W ≤ mMax)
    {ds : ℕ → LV} (hd : IsDecay s.masses.length (fun i => s.masses.getD i 0) ⟨0, 0, 0, W⟩ ds) (hpos : ∀ i, i + 1 < s.masses.length → 0 < (total ds (i + 1)).m2) :
    ∃ p, (∀ k par, (parameters s.masses mMin mMax)[k]? = some par → Within (p k) par) ∧ mX s p = W ∧
      ∃ g, decay s p = .ok g ∧ ∀ i < s.masses.length, g.daughters i = ds i := by
  obtain ⟨M, c, phi, g', hv, hsub, hc, eb, hds⟩ := kinematics_complete { PS.new with n := s.masses.length, m := fun i => s.masses.getD i 0, kinType := .block } h2 rfl hm0
    ⟨0, 0, 0, W⟩ ds hd hpos
  dsimp only at hv hsub hc hds
  have hW0 : 0 ≤ W := by
    have : (total ds (s.masses.length - 1)).t = W := by rw [hd.conserved]
    rw [← this]
    exact (total_props hd.onShell hm0 hd.energy _ (by omega)).2.1
  obtain ⟨psi, hpsi⟩ : ∃ psi : ℕ → ℝ, ∀ i, (0 ≤ psi i ∧ psi i ≤ 2 * Real.pi) ∧ Real.cos (psi i) = Real.cos (phi i) ∧ Real.sin (psi i) = Real.sin (phi i) := by
    refine ⟨fun i => toIcoMod Real.two_pi_pos 0 (phi i), fun i => ?_⟩
    have h1 := toIcoMod_mem_Ico Real.two_pi_pos 0 (phi i)
    refine ⟨⟨h1.1, by have := h1.2; linarith⟩, ?_, ?_⟩
    · show Real.cos (phi i - toIcoDiv Real.two_pi_pos 0 (phi i) • (2 * Real.pi)) = _
      rw [zsmul_eq_mul]
      exact Real.cos_sub_int_mul_two_pi _ _
    · show Real.sin (phi i - toIcoDiv Real.two_pi_pos 0 (phi i) • (2 * Real.pi)) = _
      rw [zsmul_eq_mul]
      exact Real.sin_sub_int_mul_two_pi _ _
  obtain ⟨p, hp⟩ : ∃ p : ℕ → ℝ, p = fun k => if k % 3 = 0 then M (k / 3 + 1) else if k % 3 = 1 then c (k / 3 + 1) else psi (k / 3 + 1) := ⟨_, rfl⟩
  have hpt : PointOf s.masses p M c psi := by
    refine ⟨hv.first, fun i _ => ?_, fun i _ => ?_, fun i _ => ?_⟩
    · rw [hp]
      dsimp only
      rw [if_pos (by omega), show 3 * i / 3 = i by omega]
    · rw [hp]
      dsimp only
      rw [if_neg (by omega), if_pos (by omega), show (3 * i + 1) / 3 = i by omega]
    · rw [hp]
      dsimp only
      rw [if_neg (by omega), if_neg (by omega), show (3 * i + 2) / 3 = i by omega]
  obtain ⟨g, e, hn, hm, hk, hM, ha, hq, hb⟩ := decay_ok s h2 hpt hv
  -- the mass of the point
  obtain ⟨q, e', hq', hb'⟩ := calcBreakupMomenta_spec { PS.new with n := s.masses.length, m := fun i => s.masses.getD i 0, kinType := .block, M := M, cosTheta := c, phi := phi } hv
    (by show 1 ≤ s.masses.length; omega)
  have eg' : g' = { PS.new with n := s.masses.length, m := fun i => s.masses.getD i 0, kinType := .block, M := M, cosTheta := c, phi := phi, q := q } :=
    Option.some.inj (eb.symm.trans e')
  have hMW : M (s.masses.length - 1) = W := by
    have h := hsub (s.masses.length - 1) (by omega)
    rw [hd.conserved] at h
    have h' : W ^ 2 = M (s.masses.length - 1) ^ 2 := by rw [← h]; unfold LV.m2; ring
    exact ((pow_left_inj₀ hW0 (valid_nonneg hv _ (by omega)) two_ne_zero).1 h').symm
  refine ⟨p, (box_iff h2 hpt hv (hlo.trans hhi)).2 ⟨by rw [hMW]; exact ⟨hlo, hhi⟩, fun i hi => ⟨abs_le.1 ((sq_le_one_iff_abs_le_one _).1 (hc i hi)), (hpsi _).1⟩⟩,
    (mX_point h2 hpt).trans hMW, _, e, fun i hi => ?_⟩
  rw [← hds i hi, hMW]
  unfold PS.calcEventKinematics
  rw [hk, eg']
  dsimp only
  rw [hn]
  refine block_congr _ _ _ _ _ _ (fun j hj => ⟨?_, (ha j (by omega)).1, ?_, ?_, ?_⟩) i (by omega)
  · exact Option.some.inj ((hb j (by omega)).symm.trans (hb' j (by show j + 1 < s.masses.length; omega)))
  · rw [(ha j (by omega)).2]; exact (hpsi _).2.1
  · rw [(ha j (by omega)).2]; exact (hpsi _).2.2
  · rw [hm]

/-! ## stored events -/

private theorem invert_spec {L : LV → LV} (hL : Amp.Spec.Frame L) (q : LV) : L (invert L q) = q := by
  obtain ⟨p, rfl⟩ := hL.onto q
  congr 1
  refine Amp.prod_ext fun r => ?_
  have hb : ∀ e : LV, Amp.Spec.prod (L e) (L p) = Amp.Spec.prod e p := fun e => hL.keeps_prod e p
  have h1 := hb ⟨1, 0, 0, 0⟩
  have h2 := hb ⟨0, 1, 0, 0⟩
  have h3 := hb ⟨0, 0, 1, 0⟩
  have h4 := hb ⟨0, 0, 0, 1⟩
  have e : invert L (L p) = p := by
    unfold invert
    unfold Amp.Spec.prod at h1 h2 h3 h4
    ext
    · dsimp only at h1 ⊢; linarith
    · dsimp only at h2 ⊢; linarith
    · dsimp only at h3 ⊢; linarith
    · dsimp only at h4 ⊢; linarith
  rw [e]

private theorem future {X p : LV} (hX : 0 < X.m2) (ht : 0 < X.t) (hp : 0 ≤ p.m2) (h : 0 ≤ Amp.Spec.prod p X) : 0 ≤ p.t := by
  by_contra hn
  push Not at hn
  unfold Amp.Spec.prod at h
  have hlt : -(p.x * X.x + p.y * X.y + p.z * X.z) ≥ -(p.t * X.t) := by linarith
  have hpos : 0 < -(p.t * X.t) := by nlinarith
  have hsq : (p.t * X.t) ^ 2 ≤ (p.x * X.x + p.y * X.y + p.z * X.z) ^ 2 := by nlinarith
  have hcs : (p.x * X.x + p.y * X.y + p.z * X.z) ^ 2 ≤ (p.x ^ 2 + p.y ^ 2 + p.z ^ 2) * (X.x ^ 2 + X.y ^ 2 + X.z ^ 2) := by
    nlinarith [sq_nonneg (p.x * X.y - p.y * X.x), sq_nonneg (p.x * X.z - p.z * X.x), sq_nonneg (p.y * X.z - p.z * X.y)]
  have a1 : p.x ^ 2 + p.y ^ 2 + p.z ^ 2 ≤ p.t ^ 2 := by unfold LV.m2 at hp; nlinarith
  have a2 : X.x ^ 2 + X.y ^ 2 + X.z ^ 2 < X.t ^ 2 := by unfold LV.m2 at hX; nlinarith
  have hpt : 0 < p.t ^ 2 := by nlinarith
  have : (p.x ^ 2 + p.y ^ 2 + p.z ^ 2) * (X.x ^ 2 + X.y ^ 2 + X.z ^ 2) ≤ p.t ^ 2 * (X.x ^ 2 + X.y ^ 2 + X.z ^ 2) :=
    mul_le_mul_of_nonneg_right a1 (by positivity)
  nlinarith

private theorem total_map {L : LV → LV} (hL : Amp.Spec.Frame L) (ds : ℕ → LV) : ∀ k, L (total ds k) = total (fun i => L (ds i)) k
  | 0 => rfl
  | k + 1 => by
    show L (total ds k + ds (k + 1)) = total _ k + _
    rw [hL.map_add, total_map hL ds k]

private theorem obs_eq {s : Sampler} {p : ℕ → ℝ} {g : PS} (e : decay s p = .ok g) (w : Now) (beam : Option LV) (t : Option ℝ) (mt mr az : ℝ) :
    observables s w beam t mt mr az p =
      if w.writerReady = true ∧ w.phase > 0 then
        if w.lag = 0 then .ub
        else if w.iteration % w.lag ≠ 0 then .ok ((List.range s.masses.length).flatMap fun a => (List.range a).map fun b => (g.daughters a + g.daughters b).m2, none)
        else (production beam t mt mr (mX s p) az).bind fun r =>
          .ok ((List.range s.masses.length).flatMap fun a => (List.range a).map fun b => (g.daughters a + g.daughters b).m2,
            some ⟨[r.2.1.vect], r.2.2.map fun X => (List.range s.masses.length).map fun i => (invert (Amp.gjTransform r.2.1 X) (g.daughters i)).vect,
              if w.storeMassAndTPrime then [r.2.2.map fun X => Real.sqrt X.m2, some r.1] else []⟩)
      else .ok ((List.range s.masses.length).flatMap fun a => (List.range a).map fun b => (g.daughters a + g.daughters b).m2, none) := by
  unfold observables
  rw [e]
  rfl

/-- **When an event is stored**: at a possible point, if the file is ready, the pre-run is over and the iteration is a multiple of the lag; a beam generator or picker that
fails then ends the program, and a lag of 0 is a division by zero. -/
theorem stored_iff (s : Sampler) (h2 : 2 ≤ s.masses.length) {p M c phi : ℕ → ℝ} (h : PointOf s.masses p M c phi)
    (hv : ValidMasses s.masses.length (fun i => s.masses.getD i 0) M) (w : Now) (beam : Option LV) (t : Option ℝ) (mt mr az : ℝ) :
    (w.lag = 0 ∧ w.writerReady = true ∧ 0 < w.phase → observables s w beam t mt mr az p = .ub) ∧
    (0 < w.lag → ∀ b t', beam = some b → t = some t' → ∃ pairs ev, observables s w beam t mt mr az p = .ok (pairs, ev) ∧
      (ev.isSome ↔ w.writerReady = true ∧ 0 < w.phase ∧ w.lag ∣ w.iteration)) ∧
    (0 < w.lag → beam = none ∨ t = none → w.writerReady = true ∧ 0 < w.phase ∧ w.lag ∣ w.iteration → observables s w beam t mt mr az p = .terminate) := by
  obtain ⟨g, e, -⟩ := decay_ok s h2 h hv
  have hobs := obs_eq e w beam t mt mr az
  refine ⟨fun ⟨h0, h1, h3⟩ => ?_, fun h0 b t' hb ht => ?_, fun h0 hbt ⟨h1, h3, h4⟩ => ?_⟩
  · rw [hobs, if_pos ⟨h1, h3⟩, if_pos h0]
  · rw [hobs]
    by_cases hw : w.writerReady = true ∧ w.phase > 0
    · rw [if_pos hw, if_neg (by omega)]
      by_cases hi : w.iteration % w.lag = 0
      · rw [if_neg (by rw [hi]; simp), hb, ht]
        exact ⟨_, _, rfl, fun _ => ⟨hw.1, hw.2, Nat.dvd_of_mod_eq_zero hi⟩, fun _ => rfl⟩
      · rw [if_pos hi]
        exact ⟨_, none, rfl, fun h => (by cases h), fun h => absurd (Nat.mod_eq_zero_of_dvd h.2.2) hi⟩
    · rw [if_neg hw]
      exact ⟨_, none, rfl, fun h => (by cases h), fun h => absurd ⟨h.1, h.2.1⟩ hw⟩
  · rw [hobs, if_pos ⟨h1, h3⟩, if_neg (by omega), if_neg (by rw [Nat.mod_eq_zero_of_dvd h4]; simp)]
    rcases hbt with hb | ht
    · rw [hb]; rfl
    · rw [ht]
      cases beam <;> rfl

/-- **The stored event**: for every possible point, every physical beam particle and every `t'` that is possible, the final-state momenta that are written are those of a
decay, in the laboratory, of a system X of the mass of the point, produced by the beam particle with that `t'`; seen from the Gottfried-Jackson frame it is the decay the
model was asked about; the squared masses of all pairs are reported; mass and `t'` are stored if wanted. -/
theorem event_spec (s : Sampler) (h2 : 2 ≤ s.masses.length) {p M c phi : ℕ → ℝ} (h : PointOf s.masses p M c phi)
    (hv : ValidMasses s.masses.length (fun i => s.masses.getD i 0) M) (hc : ∀ i, i + 1 < s.masses.length → c (i + 1) ^ 2 ≤ 1) {w : Now} {b : LV} {t' mt mr az : ℝ}
    (hP : Physical b mt (M (s.masses.length - 1)) mr) (ht : 0 ≤ t') {pairs : List ℝ} {ev : Stored}
    (hev : observables s w (some b) (some t') mt mr az p = .ok (pairs, some ev)) :
    ∃ ds : ℕ → LV, IsDecay s.masses.length (fun i => s.masses.getD i 0) ⟨0, 0, 0, M (s.masses.length - 1)⟩ ds ∧ SubMasses s.masses.length M ds ∧
      (s.phaseSpaceOnly = false → logLikelihood s p = (s.model ((List.range s.masses.length).map fun i => (ds i).vect)).bind fun x => .ok (clog (some x))) ∧
      ev.prod = [b.vect] ∧
      (ev.decay.isSome ↔ ∃ X, calculateXSystemLab b mt (M (s.masses.length - 1)) mr (b + Spec.target mt).m2 t' az = some X) ∧
      ∀ dec, ev.decay = some dec → ∃ X lab, Allowed b mt (M (s.masses.length - 1)) mr X ∧ IsTPrime b mt (M (s.masses.length - 1)) mr X t' ∧
        IsDecay s.masses.length (fun i => s.masses.getD i 0) X lab ∧ (∀ i < s.masses.length, Amp.gjTransform b X (lab i) = ds i) ∧
        Amp.gjTransform b X X = ⟨0, 0, 0, M (s.masses.length - 1)⟩ ∧
        dec = (List.range s.masses.length).map (fun i => (lab i).vect) ∧ (ev.vars = if w.storeMassAndTPrime then [some (M (s.masses.length - 1)), some t'] else []) ∧
        pairs = (List.range s.masses.length).flatMap fun i => (List.range i).map fun j => (lab i + lab j).m2 := by
  obtain ⟨g, e, hd, hs⟩ := decay_spec s h2 h hv hc
  refine ⟨g.daughters, hd, hs, fun hps => ?_, ?_⟩
  · unfold logLikelihood
    rw [if_neg (by rw [hps]; simp), e]
    rfl
  have hobs := obs_eq e w (some b) (some t') mt mr az
  rw [hobs] at hev
  by_cases hw : w.writerReady = true ∧ w.phase > 0
  swap
  · rw [if_neg hw] at hev; cases hev
  rw [if_pos hw] at hev
  by_cases hl : w.lag = 0
  · rw [if_pos hl] at hev; cases hev
  rw [if_neg hl] at hev
  by_cases hi : w.iteration % w.lag ≠ 0
  · rw [if_pos hi] at hev; cases hev
  rw [if_neg hi, show production (some b) (some t') mt mr (mX s p) az = .ok (t', b, calculateXSystemLab b mt (M (s.masses.length - 1)) mr (b + Spec.target mt).m2 t' az) by
    rw [← mX_point h2 h]; rfl] at hev
  have hev' := Prod.mk.inj (Outcome.ok.inj hev)
  obtain ⟨hpairs, hst⟩ := hev'
  have hst := Option.some.inj hst
  rw [← hst]
  refine ⟨rfl, ?_, fun dec hdec => ?_⟩
  · dsimp only
    rw [Option.isSome_map, Option.isSome_iff_exists]
  dsimp only at hdec
  obtain ⟨X, hX, hdec⟩ := Option.map_eq_some_iff.1 hdec
  obtain ⟨hA, hT⟩ := xSystem_complete hP ht hX
  have hMpos : 0 < M (s.masses.length - 1) := by
    obtain ⟨n, hn⟩ : ∃ n, s.masses.length = n + 2 := ⟨s.masses.length - 2, by omega⟩
    have := hv.pos n (by omega)
    rw [hn]
    exact this
  have hXm : 0 < X.m2 := by rw [hA.1]; positivity
  have hXt : 0 < X.t := energy_pos hXm hA.2.1
  obtain ⟨hF, hR⟩ := Amp.gj_rest (beam := b) hXm hXt
  have hsq : Real.sqrt X.m2 = M (s.masses.length - 1) := by rw [hA.1]; exact Real.sqrt_sq hMpos.le
  rw [hsq] at hR
  have hinv : ∀ q, Amp.gjTransform b X (invert (Amp.gjTransform b X) q) = q := fun q => invert_spec hF q
  refine ⟨X, fun i => invert (Amp.gjTransform b X) (g.daughters i), hA, hT, ⟨?_, fun i hi => ?_, fun i hi => ?_⟩, fun i _ => hinv _, hR, hdec.symm, ?_, ?_⟩
  · refine hF.injective ?_
    rw [total_map hF, hR, ← hd.conserved]
    exact total_congr fun i _ => hinv _
  · rw [← hF.m2, hinv]; exact hd.onShell i hi
  · refine future hXm hXt (by rw [← hF.m2, hinv, hd.onShell i hi]; positivity) ?_
    rw [← hF.keeps_prod, hinv, hR]
    unfold Amp.Spec.prod
    have := mul_nonneg (hd.energy i hi) hMpos.le
    dsimp only
    linarith
  · rw [hX]
    dsimp only [Option.map_some]
    rw [hsq]
  · rw [← hpairs]
    have : ∀ i j, (invert (Amp.gjTransform b X) (g.daughters i) + invert (Amp.gjTransform b X) (g.daughters j)).m2 = (g.daughters i + g.daughters j).m2 := by
      intro i j
      rw [← hF.m2, hF.map_add, hinv, hinv]
    simp only [this]

/-- **Construction**: the program ends if and only if there are less than two particles or the mass range is inverted. -/
theorem new_iff (masses : List ℝ) (mMin mMax : ℝ) (model : List V3 → Outcome ℝ) :
    (new masses mMin mMax model = .terminate ↔ masses.length < 2 ∨ mMax < mMin) ∧
    (∀ s ps, new masses mMin mMax model = .ok (s, ps) → s.masses = masses ∧ s.model = model ∧ s.phaseSpaceOnly = false ∧ s.massPrior = none ∧
      ps = parameters masses mMin mMax ∧ ps.length = 3 * (masses.length - 1)) := by
  unfold new
  by_cases h : masses.length < 2
  · rw [if_pos h]
    exact ⟨⟨fun _ => .inl h, fun _ => rfl⟩, fun s ps e => (by cases e)⟩
  · rw [if_neg h]
    by_cases h' : mMin > mMax
    · rw [if_pos h']
      exact ⟨⟨fun _ => .inr h', fun _ => rfl⟩, fun s ps e => (by cases e)⟩
    · rw [if_neg h']
      refine ⟨⟨fun e => (by cases e), fun e => absurd e (by rintro (a | a); exacts [h a, h' a])⟩, fun s ps e => ?_⟩
      cases e
      exact ⟨rfl, rfl, rfl, rfl, rfl, par_length _ _ _⟩

/-! ## a concrete case -/

/-- three particles of mass 1, subsystem masses 5/2 and 4. -/
noncomputable def exSampler : Sampler := ⟨[1, 1, 1], false, some fun m => m, fun _ => .ok 7⟩

noncomputable def exPoint (k : ℕ) : ℝ := [5 / 2, 1 / 2, 1, 4, -1 / 3, 2].getD k 0

noncomputable def exM (i : ℕ) : ℝ := [1, 5 / 2, 4].getD i 0

theorem exPoint_of : PointOf exSampler.masses exPoint exM (fun i => [0, 1 / 2, -1 / 3].getD i 0) (fun i => [0, 1, 2].getD i 0) := by
  refine ⟨rfl, fun i hi => ?_, fun i hi => ?_, fun i hi => ?_⟩ <;>
  · have : i < 2 := by
      have h3 : exSampler.masses.length = 3 := rfl
      omega
    interval_cases i <;> rfl

theorem exM_valid : ValidMasses 3 (fun i => exSampler.masses.getD i 0) exM := by
  refine ⟨fun i hi => ?_, rfl, fun i hi => ?_, fun i hi => ?_⟩
  · interval_cases i <;> norm_num [exSampler]
  · have : i < 2 := by omega
    interval_cases i <;> norm_num [exSampler, exM]
  · have : i < 2 := by omega
    interval_cases i <;> norm_num [exM]

example : ∃ a b, logPrior exSampler exPoint = .ok a ∧ logLikelihood exSampler exPoint = .ok b ∧ 0 < prob a * prob b := by
  obtain ⟨ds, a, b, -, -, ha, hb, e⟩ := target exSampler (by show 2 ≤ 3; omega) exPoint_of exM_valid
    (fun i hi => by
      have : i < 2 := by
        have h3 : exSampler.masses.length = 3 := rfl
        omega
      interval_cases i <;> norm_num)
    (.inr (by show [1, 1, 1].sum < exM 2; norm_num [exM])) rfl (fun f hf => by cases hf; show 0 ≤ exM 2; norm_num [exM]) (I := fun _ => 7) rfl (fun _ => by norm_num)
  refine ⟨a, b, ha, hb, ?_⟩
  rw [e]
  have hd : 0 < density (fun i => exSampler.masses.getD i 0) exM 2 := by
    show 0 < twoBody (5 / 2) 1 1 * (2 * (5 / 2) / (2 * Real.pi)) * twoBody 4 (5 / 2) 1
    have h1 : 0 < twoBody (5 / 2) 1 1 := div_pos (Real.sqrt_pos.2 (by norm_num)) (by positivity)
    have h2 : 0 < twoBody 4 (5 / 2) 1 := div_pos (Real.sqrt_pos.2 (by norm_num)) (by positivity)
    positivity
  have hf : (0 : ℝ) < (Nat.factorial (exSampler.masses.length - 2) : ℝ) := by exact_mod_cast Nat.factorial_pos _
  have hx : (0 : ℝ) < exM 2 := by norm_num [exM]
  exact mul_pos (mul_pos (div_pos hd hf) hx) (by norm_num)

/-- a beam of mass 4 is scattered elastically on a target of mass 3: the hypotheses of `event_spec` are met, and an event with momenta is stored. -/
example : Physical ⟨0, 0, 3, 5⟩ 3 (exM 2) 3 ∧ ∃ t', 0 ≤ t' ∧ ∃ pairs ev, observables exSampler ⟨true, 1, 20, 10, true⟩ (some ⟨0, 0, 3, 5⟩) (some t') 3 3 0 exPoint = .ok (pairs, some ev) ∧
    ev.decay.isSome ∧ pairs.length = 3 := by
  have e4 : exM 2 = 4 := by norm_num [exM]
  have hP : Physical ⟨0, 0, 3, 5⟩ 3 (exM 2) 3 := by
    rw [e4]
    refine ⟨by norm_num, by norm_num, by norm_num, by norm_num, by norm_num [LV.m2], ?_, ?_⟩
    · unfold LV.P; norm_num
    · rw [m2_target]; norm_num [LV.m2]
  have hA : Allowed ⟨0, 0, 3, 5⟩ 3 (exM 2) 3 ⟨0, 0, 3, 5⟩ := by
    rw [e4]
    refine ⟨?_, ?_, ?_, ?_⟩ <;> norm_num [LV.m2, Gen.Spec.target]
  have hT := tPrime_spec hP hA
  obtain ⟨X, hX, -, -⟩ := xSystem_spec hP _ hA hT (.inr (by unfold LV.P; norm_num)) 0
  have h0 : 0 ≤ tPrime ⟨0, 0, 3, 5⟩ (Gen.Spec.target 3) ⟨0, 0, 3, 5⟩ := by
    obtain ⟨t0, hg, he⟩ := hT
    have := hg.2 ⟨_, hA, rfl⟩
    linarith
  have hc : ∀ i, i + 1 < exSampler.masses.length → ((fun i => [0, 1 / 2, -1 / 3].getD i 0 : ℕ → ℝ) (i + 1)) ^ 2 ≤ 1 := fun i hi => by
    have : i < 2 := by
      have h3 : exSampler.masses.length = 3 := rfl
      omega
    interval_cases i <;> norm_num
  refine ⟨hP, _, h0, ?_⟩
  obtain ⟨pairs, ev, he, hi⟩ := (stored_iff exSampler (by show 2 ≤ 3; omega) exPoint_of exM_valid ⟨true, 1, 20, 10, true⟩ (some ⟨0, 0, 3, 5⟩)
    (some (tPrime ⟨0, 0, 3, 5⟩ (Gen.Spec.target 3) ⟨0, 0, 3, 5⟩)) 3 3 0).2.1 (by norm_num) _ _ rfl rfl
  obtain ⟨ev, rfl⟩ := Option.isSome_iff_exists.1 (hi.2 ⟨rfl, by norm_num, by norm_num⟩)
  obtain ⟨ds, -, -, -, -, hsome, hrest⟩ := event_spec exSampler (by show 2 ≤ 3; omega) exPoint_of exM_valid hc hP h0 he
  have hs := hsome.2 ⟨X, hX⟩
  obtain ⟨dec, hd⟩ := Option.isSome_iff_exists.1 hs
  obtain ⟨_, _, _, _, _, _, _, _, _, hp⟩ := hrest dec hd
  exact ⟨pairs, ev, he, hs, by rw [hp]; rfl⟩

end Rpwa.ISamp
