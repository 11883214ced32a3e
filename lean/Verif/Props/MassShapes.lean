import Verif.Spec.MassShapes
import Mathlib.Tactic.Linarith
import Mathlib.Tactic.Ring
import Mathlib.Tactic.FieldSimp
import Mathlib.Tactic.NormNum
import Mathlib.Data.Real.Sqrt
/-! # C104: mass shapes of the isobars of a decay -/
namespace Rpwa.MassShapes

theorem kallen_factor (M m1 m2 : ℝ) : kallen M m1 m2 = (M ^ 2 - (m1 + m2) ^ 2) * (M ^ 2 - (m1 - m2) ^ 2) := by
  unfold kallen
  ring

/-- the decay is not allowed exactly between the difference and the sum of the masses. -/
theorem kallen_neg (M m1 m2 : ℝ) (hM : 0 ≤ M) (h1 : 0 ≤ m1) (h2 : 0 ≤ m2) : kallen M m1 m2 < 0 ↔ |m1 - m2| < M ∧ M < m1 + m2 := by
  rw [kallen_factor]
  have hd : (m1 - m2) ^ 2 ≤ (m1 + m2) ^ 2 := by
    have := mul_nonneg h1 h2
    nlinarith
  constructor
  · intro h
    rcases mul_neg_iff.1 h with ⟨ha, hb⟩ | ⟨ha, hb⟩
    · exfalso
      linarith
    · constructor
      · have : (m1 - m2) ^ 2 < M ^ 2 := by linarith
        exact abs_lt_of_sq_lt_sq this hM
      · have : M ^ 2 < (m1 + m2) ^ 2 := by linarith
        exact lt_of_pow_lt_pow_left₀ 2 (by linarith) this
  · rintro ⟨ha, hb⟩
    have h3 : (m1 - m2) ^ 2 < M ^ 2 := by
      rw [← sq_abs (m1 - m2)]
      exact pow_lt_pow_left₀ ha (abs_nonneg _) (by omega)
    have h4 : M ^ 2 < (m1 + m2) ^ 2 := pow_lt_pow_left₀ hb hM (by omega)
    exact mul_neg_of_neg_of_pos (by linarith) (by linarith)

/-- the momentum of the daughters. -/
theorem momentum_sq (M m1 m2 : ℝ) (hM : 0 < M) (h : 0 ≤ kallen M m1 m2) : momentum M m1 m2 ^ 2 = kallen M m1 m2 / (4 * M ^ 2) := by
  unfold momentum
  rw [div_pow, Real.sq_sqrt h]
  congr 1
  ring

theorem energy_sq (M m1 m2 : ℝ) (hM : 0 < M) (h : 0 ≤ kallen M m1 m2) :
    m1 * m1 + momentum M m1 m2 * momentum M m1 m2 = ((M ^ 2 + m1 ^ 2 - m2 ^ 2) / (2 * M)) ^ 2 ∧
    m2 * m2 + momentum M m1 m2 * momentum M m1 m2 = ((M ^ 2 + m2 ^ 2 - m1 ^ 2) / (2 * M)) ^ 2 := by
  have hq := momentum_sq M m1 m2 hM h
  have hq' : momentum M m1 m2 * momentum M m1 m2 = kallen M m1 m2 / (4 * M ^ 2) := by rw [← hq]; ring
  rw [hq', kallen_factor]
  have : M ≠ 0 := ne_of_gt hM
  constructor
  · field_simp
    ring
  · field_simp
    ring

/-- **C104**: the decay above threshold. -/
theorem decays (M m1 m2 : ℝ) (hM : 0 < M) (h1 : 0 ≤ m1) (h2 : 0 ≤ m2) (h : m1 + m2 ≤ M) :
    Decays M m1 m2 (momentum M m1 m2) (Real.sqrt (m1 * m1 + momentum M m1 m2 * momentum M m1 m2))
      (Real.sqrt (m2 * m2 + momentum M m1 m2 * momentum M m1 m2)) := by
  have hk : 0 ≤ kallen M m1 m2 := by
    rw [← not_lt, kallen_neg M m1 m2 hM.le h1 h2]
    rintro ⟨_, h'⟩
    linarith
  have hq : 0 ≤ momentum M m1 m2 := div_nonneg (Real.sqrt_nonneg _) (by linarith)
  refine ⟨hq, Real.sqrt_nonneg _, Real.sqrt_nonneg _, ?_, ?_, ?_⟩
  · rw [Real.sq_sqrt (by nlinarith)]
    ring
  · rw [Real.sq_sqrt (by nlinarith)]
    ring
  · obtain ⟨e1, e2⟩ := energy_sq M m1 m2 hM hk
    rw [e1, e2, Real.sqrt_sq, Real.sqrt_sq]
    · field_simp
      ring
    · apply div_nonneg
      · nlinarith
      · linarith
    · apply div_nonneg
      · nlinarith
      · linarith

/-- there is one such decay. -/
theorem decays_unique (M m1 m2 q e1 e2 q' e1' e2' : ℝ) (h : Decays M m1 m2 q e1 e2) (h' : Decays M m1 m2 q' e1' e2') : q = q' ∧ e1 = e1' ∧ e2 = e2' := by
  obtain ⟨a, b, c, d, e, f⟩ := h
  obtain ⟨a', b', c', d', e', f'⟩ := h'
  have hq : q = q' := by
    rcases lt_trichotomy q q' with hlt | heq | hlt
    · exfalso
      have h1 : q ^ 2 < q' ^ 2 := pow_lt_pow_left₀ hlt a (by omega)
      have h2 : e1 < e1' := lt_of_pow_lt_pow_left₀ 2 b' (by linarith)
      have h3 : e2 < e2' := lt_of_pow_lt_pow_left₀ 2 c' (by linarith)
      linarith
    · exact heq
    · exfalso
      have h1 : q' ^ 2 < q ^ 2 := pow_lt_pow_left₀ hlt a' (by omega)
      have h2 : e1' < e1 := lt_of_pow_lt_pow_left₀ 2 b (by linarith)
      have h3 : e2' < e2 := lt_of_pow_lt_pow_left₀ 2 c (by linarith)
      linarith
  subst hq
  have h1 : e1 = e1' := by
    have : e1 ^ 2 = e1' ^ 2 := by rw [d, d']
    exact (pow_left_inj₀ b b' (by omega)).1 this
  exact ⟨rfl, h1, by linarith⟩

/-- the amplitude of a vertex does not depend on the vectors that are left from earlier calls. -/
theorem single_fresh (v : Vertex) (hv : Distinct v) (mass : ℝ) (useBarrier : Bool) (st : St) :
    (single v mass useBarrier st).1 = if kallen mass v.m1 v.m2 < 0 then 0 else
      v.amp ⟨0, mass⟩ ⟨momentum mass v.m1 v.m2, Real.sqrt (v.m1 * v.m1 + momentum mass v.m1 v.m2 * momentum mass v.m1 v.m2)⟩
        ⟨-momentum mass v.m1 v.m2, Real.sqrt (v.m2 * v.m2 + momentum mass v.m1 v.m2 * momentum mass v.m1 v.m2)⟩ *
        (if useBarrier then ((Phys.barrierFactor v.L (momentum mass v.m1 v.m2) : ℝ) : ℂ) else 1) := by
  obtain ⟨h1, h2, h3⟩ := hv
  unfold single
  dsimp only
  by_cases hk : kallen mass v.m1 v.m2 < 0
  · rw [if_pos hk, if_pos hk]
  · rw [if_neg hk, if_neg hk]
    dsimp only
    unfold set
    rw [if_neg h2, if_neg h1, if_pos rfl, if_neg h3, if_pos rfl, if_pos rfl]
    cases useBarrier with
    | true => rw [if_pos rfl, if_pos rfl]
    | false => rw [if_neg Bool.false_ne_true, if_neg Bool.false_ne_true, mul_one]

/-- **C104**: the amplitude of one vertex. -/
theorem single_spec (v : Vertex) (hv : Distinct v) (mass : ℝ) (hm : 0 < mass) (h1 : 0 ≤ v.m1) (h2 : 0 ≤ v.m2) (useBarrier : Bool) (st : St) :
    IsShape mass useBarrier v (single v mass useBarrier st).1 := by
  rw [single_fresh v hv]
  constructor
  · intro h
    refine ⟨_, _, _, decays mass v.m1 v.m2 hm h1 h2 h, ?_⟩
    rw [if_neg]
    rw [kallen_neg mass v.m1 v.m2 hm.le h1 h2]
    rintro ⟨_, h'⟩
    linarith
  · intro h h'
    rw [if_pos ((kallen_neg mass v.m1 v.m2 hm.le h1 h2).2 ⟨h, h'⟩)]

theorem shapes_cons (mass : ℝ) (useBarrier : Bool) (v : Vertex) (t1 t2 : Tree) (st : St) : (shapes mass useBarrier (.iso v t1 t2) st).1 =
    (single v mass useBarrier st).1 :: ((shapes mass useBarrier t1 (single v mass useBarrier st).2).1 ++
      (shapes mass useBarrier t2 (shapes mass useBarrier t1 (single v mass useBarrier st).2).2).1) := by
  conv_lhs => unfold shapes
  dsimp only
  rw [List.append_assoc, List.singleton_append]

/-- the result does not depend on what the topology was used for before. -/
theorem shapes_fresh (mass : ℝ) (useBarrier : Bool) (t : Tree) (ht : ∀ v ∈ vertices t, Distinct v) : ∀ st st' : St,
    (shapes mass useBarrier t st).1 = (shapes mass useBarrier t st').1 := by
  induction t with
  | fs => intro st st'; rfl
  | iso v t1 t2 ih1 ih2 =>
    intro st st'
    rw [shapes_cons, shapes_cons]
    have hv := ht v List.mem_cons_self
    have h1 := ih1 (fun u hu => ht u (List.mem_cons_of_mem _ (List.mem_append_left _ hu)))
    have h2 := ih2 (fun u hu => ht u (List.mem_cons_of_mem _ (List.mem_append_right _ hu)))
    rw [single_fresh v hv, single_fresh v hv, h1 (single v mass useBarrier st).2 (single v mass useBarrier st').2,
      h2 (shapes mass useBarrier t1 (single v mass useBarrier st).2).2 (shapes mass useBarrier t1 (single v mass useBarrier st').2).2]

/-- **C104**: there is one value for each vertex, in this order, and each is the shape of its vertex. -/
theorem shapes_spec (mass : ℝ) (hm : 0 < mass) (useBarrier : Bool) (t : Tree) (ht : ∀ v ∈ vertices t, Distinct v ∧ 0 ≤ v.m1 ∧ 0 ≤ v.m2) :
    ∀ st : St, List.Forall₂ (IsShape mass useBarrier) (vertices t) (shapes mass useBarrier t st).1 := by
  induction t with
  | fs => intro st; exact List.Forall₂.nil
  | iso v t1 t2 ih1 ih2 =>
    intro st
    rw [shapes_cons]
    obtain ⟨a, b, c⟩ := ht v List.mem_cons_self
    refine List.Forall₂.cons (single_spec v a mass hm b c useBarrier st) ?_
    exact List.rel_append (ih1 (fun u hu => ht u (List.mem_cons_of_mem _ (List.mem_append_left _ hu))) _)
      (ih2 (fun u hu => ht u (List.mem_cons_of_mem _ (List.mem_append_right _ hu))) _)

/-- **C104, finding**: below the difference of the masses of the daughters the decay is not allowed either, but the test does not see it: the
amplitude is evaluated for daughters with more energy than the parent. -/
theorem below_difference (v : Vertex) (hv : Distinct v) (mass : ℝ) (hm : 0 < mass) (h1 : 0 ≤ v.m1) (h2 : 0 ≤ v.m2) (h : mass < |v.m1 - v.m2|)
    (st : St) : ∃ q e1 e2, (single v mass false st).1 = v.amp ⟨0, mass⟩ ⟨q, e1⟩ ⟨-q, e2⟩ ∧ mass < e1 + e2 := by
  have hk : ¬ kallen mass v.m1 v.m2 < 0 := by
    rw [kallen_neg mass v.m1 v.m2 hm.le h1 h2]
    rintro ⟨h', _⟩
    linarith
  refine ⟨momentum mass v.m1 v.m2, Real.sqrt (v.m1 * v.m1 + momentum mass v.m1 v.m2 * momentum mass v.m1 v.m2),
    Real.sqrt (v.m2 * v.m2 + momentum mass v.m1 v.m2 * momentum mass v.m1 v.m2), ?_, ?_⟩
  · rw [single_fresh v hv, if_neg hk, if_neg Bool.false_ne_true, mul_one]
  · have e1 : v.m1 ≤ Real.sqrt (v.m1 * v.m1 + momentum mass v.m1 v.m2 * momentum mass v.m1 v.m2) :=
      Real.le_sqrt_of_sq_le (by nlinarith [mul_self_nonneg (momentum mass v.m1 v.m2)])
    have e2 : v.m2 ≤ Real.sqrt (v.m2 * v.m2 + momentum mass v.m1 v.m2 * momentum mass v.m1 v.m2) :=
      Real.le_sqrt_of_sq_le (by nlinarith [mul_self_nonneg (momentum mass v.m1 v.m2)])
    have h3 : |v.m1 - v.m2| ≤ v.m1 + v.m2 := by
      rw [abs_le]
      constructor <;> linarith
    linarith

/-! ### example: X decays to an isobar and a pion, the isobar to two pions -/

noncomputable def exX : Vertex := ⟨0, 1, 2, 3 / 4, 1 / 8, 0, fun p _ _ => ((p.E : ℝ) : ℂ)⟩
noncomputable def exR : Vertex := ⟨1, 3, 4, 1 / 8, 1 / 8, 0, fun _ d1 d2 => ((d1.E + d2.E : ℝ) : ℂ)⟩
noncomputable def exT : Tree := .iso exX (.iso exR .fs .fs) .fs

theorem ex_ok : ∀ v ∈ vertices exT, Distinct v ∧ 0 ≤ v.m1 ∧ 0 ≤ v.m2 := by
  intro v hv
  have hv : v ∈ [exX, exR] := hv
  rcases List.mem_cons.1 hv with rfl | hv
  · exact ⟨⟨by decide, by decide, by decide⟩, by unfold exX; norm_num, by unfold exX; norm_num⟩
  · rw [List.mem_singleton.1 hv]
    exact ⟨⟨by decide, by decide, by decide⟩, by unfold exR; norm_num, by unfold exR; norm_num⟩

/-- at this mass X cannot decay, the isobar can. -/
theorem ex_shapes (st : St) : (shapes (4 / 5) false exT st).1 = [0, ((4 / 5 : ℝ) : ℂ)] := by
  have h := shapes_spec (4 / 5) (by norm_num) false exT ex_ok st
  change List.Forall₂ _ [exX, exR] _ at h
  generalize (shapes (4 / 5) false exT st).1 = l at h ⊢
  cases h with
  | cons hX h => cases h with
    | cons hR h => cases h with
      | nil =>
        have e1 := hX.2 (by unfold exX; rw [abs_lt]; constructor <;> norm_num) (by unfold exX; norm_num)
        obtain ⟨q, a, b, hd, e2⟩ := hR.1 (by unfold exR; norm_num)
        rw [e1, e2]
        unfold exR
        dsimp only
        rw [hd.2.2.2.2.2, if_neg Bool.false_ne_true, mul_one]

end Rpwa.MassShapes
