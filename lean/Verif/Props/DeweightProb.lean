import Verif.Props.Deweight
/-!
# De-weighting of Monte Carlo events (C93): probabilities -/
namespace Rpwa.Deweight

open Rpwa.Storage MeasureTheory

/-- number of a random event at which it is kept. -/
def KeepSet (w M : ℝ) : Set ℝ := {c | c * M < w}

instance uniform_prob (n : ℕ) : IsProbabilityMeasure (uniform n) := by
  unfold uniform
  have : IsProbabilityMeasure (volume.restrict (Set.Icc (0 : ℝ) 1)) := ⟨by simp⟩
  infer_instance

theorem keepSet_measurable (w M : ℝ) : MeasurableSet (KeepSet w M) := by
  unfold KeepSet
  exact measurableSet_lt (measurable_id.mul_const M) measurable_const

/-- probability that one event is kept. -/
noncomputable def keepProb (w M : ℝ) : ℝ := min 1 (max 0 (w / M))

theorem keepSet_volume {w M : ℝ} (hM : 0 < M) : (volume.restrict (Set.Icc (0 : ℝ) 1)) (KeepSet w M) = ENNReal.ofReal (keepProb w M) := by
  rw [Measure.restrict_apply (keepSet_measurable w M)]
  have hset : (KeepSet w M ∩ Set.Icc 0 1 : Set ℝ) =ᵐ[volume] (Set.Ico 0 (keepProb w M) : Set ℝ) := by
    have h1 : KeepSet w M = Set.Iio (w / M) := by
      ext c
      exact (lt_div_iff₀ hM).symm
    rw [h1]
    have h2 : (Set.Iio (w / M) ∩ Set.Icc 0 1 : Set ℝ) =ᵐ[volume] (Set.Iio (w / M) ∩ Set.Ico 0 1 : Set ℝ) := by
      exact (ae_eq_refl _).inter Ico_ae_eq_Icc.symm
    suffices h3 : (Set.Iio (w / M) ∩ Set.Ico 0 1 : Set ℝ) = Set.Ico 0 (keepProb w M) by
      rw [← h3]
      exact h2
    ext c
    unfold keepProb
    simp only [Set.mem_inter_iff, Set.mem_Iio, Set.mem_Ico, lt_min_iff, lt_max_iff]
    constructor
    · rintro ⟨a, b, c⟩
      exact ⟨b, c, Or.inr a⟩
    · rintro ⟨a, b, c⟩
      refine ⟨?_, a, b⟩
      rcases c with c | c
      · linarith only [a, c]
      · exact c
  rw [measure_congr hset, Real.volume_Ico, sub_zero]

/-- **C93** the events are kept independently of each other, each with probability weight over adjusted largest weight (limited to the range from 0 to 1). -/
theorem keep_independent {n : ℕ} (w : Fin n → ℝ) {M : ℝ} (hM : 0 < M) (S : Finset (Fin n)) :
    uniform n {ω | ∀ i, ω i * M < w i ↔ i ∈ S} = ∏ i, ENNReal.ofReal (if i ∈ S then min 1 (max 0 (w i / M)) else 1 - min 1 (max 0 (w i / M))) := by
  have hset : {ω : Fin n → ℝ | ∀ i, ω i * M < w i ↔ i ∈ S} = Set.univ.pi fun i => if i ∈ S then KeepSet (w i) M else (KeepSet (w i) M)ᶜ := by
    ext ω
    simp only [Set.mem_ofPred_eq, Set.mem_univ_pi]
    apply forall_congr'
    intro i
    by_cases hi : i ∈ S
    · simp [hi, KeepSet]
    · simp [hi, KeepSet]
  rw [hset]
  unfold uniform
  rw [Measure.pi_pi]
  apply Finset.prod_congr rfl
  intro i _
  have : IsProbabilityMeasure (volume.restrict (Set.Icc (0 : ℝ) 1)) := ⟨by simp⟩
  by_cases hi : i ∈ S
  · rw [if_pos hi, if_pos hi, keepSet_volume hM]
    rfl
  · rw [if_neg hi, if_neg hi, prob_compl_eq_one_sub (keepSet_measurable _ _), keepSet_volume hM, ENNReal.ofReal_sub _ (by positivity), ENNReal.ofReal_one]
    rfl

/-- **C93** probability that event `i` is kept. -/
theorem keep_probability {n : ℕ} (i : Fin n) (w : ℝ) {M : ℝ} (hM : 0 < M) :
    uniform n {ω | ω i * M < w} = ENNReal.ofReal (min 1 (max 0 (w / M))) := by
  have : IsProbabilityMeasure (volume.restrict (Set.Icc (0 : ℝ) 1)) := ⟨by simp⟩
  unfold uniform
  have := (measurePreserving_eval (fun _ : Fin n => volume.restrict (Set.Icc (0 : ℝ) 1)) i).measure_preimage (keepSet_measurable w M).nullMeasurableSet
  refine Eq.trans this ?_
  exact keepSet_volume hM

/-- **C93** with a factor of at least one and weights that are not negative nothing is cut off: the probability is exactly the weight over the
adjusted largest weight. -/
theorem keep_probability_exact {n : ℕ} (i : Fin n) {ws : List ℝ} {w M f : ℝ} (hmax : IsMaxWeight ws M) (hw : w ∈ ws) (h0 : 0 ≤ w) (hf : 1 ≤ f) (hM : 0 < M) :
    uniform n {ω | ω i * (M * f) < w} = ENNReal.ofReal (w / (M * f)) := by
  have hp : 0 < M * f := mul_pos hM (by linarith only [hf])
  rw [keep_probability i w hp, max_eq_right (div_nonneg h0 hp.le), min_eq_right]
  rw [div_le_one hp]
  have := hmax.bound w hw
  nlinarith only [this, hf, hM]

/-- **C93** with a factor below one all weights above the adjusted largest weight are kept with the same probability one: the events that remain do not
follow the weights. -/
theorem keep_saturates {n : ℕ} (i : Fin n) {w M f : ℝ} (hf : 0 < f) (hM : 0 < M) (hw : M * f ≤ w) : uniform n {ω | ω i * (M * f) < w} = 1 := by
  have hp : 0 < M * f := mul_pos hM hf
  rw [keep_probability i w hp, min_eq_left, ENNReal.ofReal_one]
  exact le_max_of_le_right ((one_le_div hp).2 hw)

theorem seq_apply {n : ℕ} (ω : Fin n → ℝ) (i : Fin n) : seq ω i = ω i := by
  unfold seq
  rw [dif_pos i.2]

open Classical in
theorem sum_kept (g : Row → ℝ) (keep : ℕ → Prop) (idx : ℕ) (rows : List Row) (k : ℕ) :
    (((rows.zipIdx k).filter fun e => decide (keep e.2)).map fun e => g (dropVal idx e.1)).sum =
      ((rows.zipIdx k).map fun e => if keep e.2 then g (dropVal idx e.1) else 0).sum := by
  induction rows generalizing k with
  | nil => rfl
  | cons r rows ih =>
    rw [List.zipIdx_cons]
    by_cases hk : keep k
    · rw [List.filter_cons_of_pos (by simpa using hk), List.map_cons, List.sum_cons, ih, List.map_cons, List.sum_cons, if_pos hk]
    · rw [List.filter_cons_of_neg (by simpa using hk), ih, List.map_cons, List.sum_cons, if_neg hk, zero_add]

theorem zipIdx_sum (F : Row × ℕ → ℝ) (rows : List Row) : (rows.zipIdx.map F).sum = ∑ i : Fin rows.length, F (rows[i], i) := by
  have : rows.zipIdx.map F = List.ofFn fun i : Fin rows.length => F (rows[i], i) := by
    apply List.ext_getElem
    · simp
    · intro i h1 h2
      simp
  rw [this, List.sum_ofFn]

open Classical in
/-- **C93** the events that remain represent the weights without bias: for every quantity `g` of an event the expectation of the sum over the events of the
file written is the sum over the events of the input, each multiplied with its weight, divided by the adjusted largest weight. -/
theorem deWeight_unbiased (md5 : Hashor → String) (val : Dbl → ℝ) {f : ℝ} {em : EventMeta} {t : Tree} {idx : ℕ} (h : Weighted em t idx)
    {M : ℝ} (hM : IsMaxWeight (weights val idx t.rows) M) (hpos : 0 < M) (hf : 1 ≤ f) (h0 : ∀ w ∈ weights val idx t.rows, 0 ≤ w) (g : Row → ℝ) :
    ∫ ω, ((outRows md5 val f (seq ω) em).map g).sum ∂(uniform t.rows.length) =
      (t.rows.map fun r => val (r.vals.getD idx Dbl.zero) * g (dropVal idx r)).sum / (M * f) := by
  have hp : 0 < M * f := mul_pos hpos (by linarith only [hf])
  have hw : ∀ (i : Fin t.rows.length), (weights val idx t.rows)[(i : ℕ)]? = some (val (t.rows[i].vals.getD idx Dbl.zero)) := by
    intro i
    unfold weights
    rw [List.getElem?_map, List.getElem?_eq_getElem i.2]
    rfl
  have hout : ∀ ω : Fin t.rows.length → ℝ, ((outRows md5 val f (seq ω) em).map g).sum =
      ∑ i : Fin t.rows.length, (({ω | ω i * (M * f) < val (t.rows[i].vals.getD idx Dbl.zero)} : Set (Fin t.rows.length → ℝ)).indicator (fun _ => g (dropVal idx t.rows[i]))) ω := by
    intro ω
    obtain ⟨m, h1, h2⟩ := deWeight_file md5 val f (seq ω) h hM hp
    unfold outRows
    rw [h1]
    dsimp only
    rw [h2.tree]
    dsimp only
    unfold kept
    rw [List.map_map]
    refine (sum_kept g (fun i => ∃ w, (weights val idx t.rows)[i]? = some w ∧ seq ω i * (M * f) < w) idx t.rows 0).trans ?_
    rw [zipIdx_sum]
    apply Finset.sum_congr rfl
    intro i _
    rw [Set.indicator_apply]
    refine ite_congr (propext ?_) (fun _ => rfl) (fun _ => rfl)
    · rw [Set.mem_ofPred_eq, hw i, seq_apply]
      constructor
      · rintro ⟨w, hw', hlt⟩
        rw [Option.some.inj hw']
        exact hlt
      · intro hlt
        exact ⟨_, rfl, hlt⟩
  have hmeas : ∀ i : Fin t.rows.length, MeasurableSet {ω : Fin t.rows.length → ℝ | ω i * (M * f) < val (t.rows[i].vals.getD idx Dbl.zero)} := fun i =>
    measurableSet_lt ((measurable_pi_apply i).mul_const _) measurable_const
  simp_rw [hout]
  rw [integral_finsetSum]
  · have hterm : ∀ i : Fin t.rows.length, ∫ ω, (({ω | ω i * (M * f) < val (t.rows[i].vals.getD idx Dbl.zero)} : Set (Fin t.rows.length → ℝ)).indicator
        (fun _ => g (dropVal idx t.rows[i]))) ω ∂(uniform t.rows.length) = val (t.rows[i].vals.getD idx Dbl.zero) * g (dropVal idx t.rows[i]) / (M * f) := by
      intro i
      rw [integral_indicator_const _ (hmeas i), measureReal_def]
      have hmem : val (t.rows[i].vals.getD idx Dbl.zero) ∈ weights val idx t.rows := List.mem_of_getElem? (hw i)
      rw [keep_probability_exact i hM hmem (h0 _ hmem) hf hpos, ENNReal.toReal_ofReal (div_nonneg (h0 _ hmem) hp.le), smul_eq_mul]
      ring
    rw [Finset.sum_congr rfl fun i _ => hterm i, ← Finset.sum_div]
    congr 1
    rw [← List.sum_ofFn]
    congr 1
    apply List.ext_getElem
    · simp
    · intro i h1 h2
      simp
  · intro i _
    exact (integrable_const _).indicator (hmeas i)

/-- **C93** the expected number of events is the sum of the weights over the adjusted largest weight. -/
theorem deWeight_expected_number (md5 : Hashor → String) (val : Dbl → ℝ) {f : ℝ} {em : EventMeta} {t : Tree} {idx : ℕ} (h : Weighted em t idx)
    {M : ℝ} (hM : IsMaxWeight (weights val idx t.rows) M) (hpos : 0 < M) (hf : 1 ≤ f) (h0 : ∀ w ∈ weights val idx t.rows, 0 ≤ w) :
    ∫ ω, ((outRows md5 val f (seq ω) em).length : ℝ) ∂(uniform t.rows.length) = (weights val idx t.rows).sum / (M * f) := by
  have := deWeight_unbiased md5 val h hM hpos hf h0 fun _ => 1
  simpa [weights] using this

end Rpwa.Deweight
