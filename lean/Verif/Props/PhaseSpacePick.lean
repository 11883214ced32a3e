import Verif.Props.PhaseSpace
import Mathlib.Data.List.GetD
import Mathlib.Tactic.NormNum.Ineq

/-!
# C51: generated events
-/

namespace Rpwa.Gen

open Spec

/-- random numbers as produced by the generator: strictly between 0 and 1 -/
structure Rnd (n : ℕ) (rnd : PS.Randoms) : Prop where
  draws : ∀ i, 0 < (rnd.draws i).a ∧ (rnd.draws i).a < 1 ∧ 0 < (rnd.draws i).b ∧ (rnd.draws i).b < 1
  len : rnd.r.length = n - 2
  r : ∀ x ∈ rnd.r, 0 < x ∧ x < 1
  u : ∀ i, 0 < rnd.u i ∧ rnd.u i < 1

/-- a configured generator: what `setDecay` establishes -/
structure Configured (g : PS) : Prop where
  two : 2 ≤ g.n
  nonneg : ∀ i < g.n, 0 ≤ g.m i
  sums : g.mSum = PS.sums g.m
  first : g.M 0 = g.m 0

theorem sums_nonneg {m : ℕ → ℝ} {n : ℕ} (h : ∀ i < n, 0 ≤ m i) : ∀ i < n, 0 ≤ PS.sums m i := by
  intro i
  induction i with
  | zero => exact h 0
  | succ i ih => exact fun hi => add_nonneg (ih (by omega)) (h (i + 1) hi)

theorem sums_mono {m : ℕ → ℝ} {n : ℕ} (h : ∀ i < n, 0 ≤ m i) {i j : ℕ} (hij : i ≤ j) (hj : j < n) :
    PS.sums m i ≤ PS.sums m j := by
  induction j with
  | zero =>
    obtain rfl : i = 0 := by omega
    exact le_refl _
  | succ j ih =>
    by_cases hi : i = j + 1
    · rw [hi]
    · refine (ih (by omega) (by omega)).trans ?_
      show _ ≤ PS.sums m j + m (j + 1)
      linarith [h (j + 1) hj]

/-- `setDecay` with non-negative masses configures the generator, whatever was done before -/
theorem setDecay_configured (g : PS) (masses : List ℝ) (h : 2 ≤ masses.length)
    (hm : ∀ x ∈ masses, 0 ≤ x) : Configured (g.setDecay masses).1 ∧ (g.setDecay masses).2 = true ∧
      (g.setDecay masses).1.n = masses.length ∧ (g.setDecay masses).1.m = fun i => masses.getD i 0 := by
  unfold PS.setDecay
  rw [if_neg (by omega)]
  refine ⟨⟨h, ?_, rfl, rfl⟩, rfl, rfl, rfl⟩
  intro i hi
  dsimp only at hi ⊢
  rw [List.getD_eq_getElem _ _ hi]
  exact hm _ (List.getElem_mem hi)

/-- masses of the form `sum + rho * interval` -/
theorem valid_of_rho {n : ℕ} {m M rho : ℕ → ℝ} {D : ℝ} (hm : ∀ i < n, 0 ≤ m i) (hD : 0 ≤ D)
    (hM : ∀ i < n, M i = PS.sums m i + rho i * D) (h0 : rho 0 = 0)
    (hmono : ∀ i, i + 1 < n → rho i ≤ rho (i + 1)) (hpos : ∀ i, i + 1 < n → 0 < rho (i + 1))
    (hn : 0 < n) (hp : 2 ≤ n → 0 < PS.sums m 1 ∨ 0 < D) : ValidMasses n m M := by
  refine ⟨hm, ?_, fun i hi => ?_, fun i hi => ?_⟩
  · rw [hM 0 hn, h0, zero_mul, add_zero]; rfl
  · rw [hM i (by omega), hM (i + 1) hi]
    show _ ≤ PS.sums m i + m (i + 1) + _
    nlinarith [mul_le_mul_of_nonneg_right (hmono i hi) hD]
  · rw [hM (i + 1) hi]
    rcases hp (by omega) with h | h
    · have := sums_mono hm (show 1 ≤ i + 1 by omega) hi
      have := mul_nonneg (hpos i hi).le hD
      linarith
    · have := sums_nonneg hm (i + 1) hi
      have := mul_pos (hpos i hi) h
      linarith

/-- the default way of picking masses -/
theorem pickMasses_default (g : PS) (hg : Configured g) {W : ℝ} (hW : g.mSum (g.n - 1) ≤ W)
    (hp : 0 < g.m 0 + g.m 1 ∨ g.mSum (g.n - 1) < W) (hw : g.weightType ≠ .nuphaz) (draws : ℕ → PS.Draw)
    {r : List ℝ} (hl : r.length = g.n - 2) (hr : ∀ x ∈ r, 0 < x ∧ x < 1) :
    ∃ M, g.pickMasses W draws r = { g with M := M } ∧ ValidMasses g.n g.m M ∧ M (g.n - 1) = W := by
  have hn := hg.two
  have e : g.pickMasses W draws r = { g with M := (fun i => if 1 ≤ i ∧ i < g.n - 1 then
      g.mSum i + (r.insertionSort (· ≤ ·)).getD (i - 1) 0 * (W - g.mSum (g.n - 1))
      else Function.update g.M (g.n - 1) W i) } := by
    unfold PS.pickMasses
    dsimp only
    split
    · rename_i h
      exact absurd h hw
    · rfl
  have hs := List.pairwise_insertionSort (· ≤ ·) r
  have hsl : (r.insertionSort (· ≤ ·)).length = g.n - 2 := by rw [List.length_insertionSort, hl]
  have hsr : ∀ i, i < g.n - 2 → 0 < (r.insertionSort (· ≤ ·)).getD i 0 ∧
      (r.insertionSort (· ≤ ·)).getD i 0 < 1 := by
    intro i hi
    rw [List.getD_eq_getElem _ _ (by omega)]
    exact hr _ ((List.mem_insertionSort _).mp (List.getElem_mem _))
  have hsm : ∀ i, i + 1 < g.n - 2 → (r.insertionSort (· ≤ ·)).getD i 0
      ≤ (r.insertionSort (· ≤ ·)).getD (i + 1) 0 := by
    intro i hi
    rw [List.getD_eq_getElem _ _ (by omega), List.getD_eq_getElem _ _ (by omega)]
    exact List.pairwise_iff_getElem.mp hs _ _ _ _ (Nat.lt_succ_self i)
  generalize r.insertionSort (· ≤ ·) = s at *
  refine ⟨_, e, ?_, ?_⟩
  · refine valid_of_rho (rho := fun i => if i = 0 then 0 else if i < g.n - 1 then s.getD (i - 1) 0 else 1)
      (D := W - g.mSum (g.n - 1)) hg.nonneg (by linarith) ?_ rfl ?_ ?_ (by omega) ?_
    · intro i hi
      by_cases h0 : i = 0
      · subst h0
        rw [if_neg (by omega), Function.update_of_ne (by omega), hg.first, if_pos rfl, zero_mul, add_zero]
        rfl
      · rw [if_neg h0]
        by_cases h1 : i < g.n - 1
        · rw [if_pos ⟨by omega, h1⟩, if_pos h1, hg.sums]
        · obtain rfl : i = g.n - 1 := by omega
          rw [if_neg (by omega), Function.update_self, if_neg h1, ← hg.sums]
          ring
    · intro i hi
      rw [if_neg (Nat.succ_ne_zero i)]
      by_cases h0 : i = 0
      · subst h0
        rw [if_pos rfl]
        split
        · exact (hsr 0 (by omega)).1.le
        · norm_num
      · rw [if_neg h0, if_pos (by omega)]
        split
        · have := hsm (i - 1) (by omega)
          rwa [show i - 1 + 1 = i + 1 - 1 by omega] at this
        · exact (hsr (i - 1) (by omega)).2.le
    · intro i hi
      rw [if_neg (Nat.succ_ne_zero i)]
      split
      · exact (hsr _ (by omega)).1
      · norm_num
    · intro _
      rcases hp with h | h
      · exact Or.inl h
      · exact Or.inr (by linarith)
  ·     rw [if_neg (by omega), Function.update_self]

/-- range of one step of the NUPHAZ mass picking -/
theorem nuphazX_range (g : PS) (d : PS.Draw) (i : ℕ) (ha : 0 < d.a) (ha1 : d.a < 1) (hb : 0 < d.b)
    (hb1 : d.b < 1) (hM : 0 < g.M (i + 2)) (hS : 0 ≤ g.mSum (i + 1)) (hm : 0 ≤ g.m (i + 2))
    (h : g.mSum (i + 1) + g.m (i + 2) ≤ g.M (i + 2)) :
    ∃ v, 0 < v ∧ v < 1 ∧ g.M (i + 2) ^ 2 * g.nuphazX d (i + 2)
      = g.mSum (i + 1) ^ 2 + v * ((g.M (i + 2) - g.m (i + 2)) ^ 2 - g.mSum (i + 1) ^ 2) := by
  have hi : (0 : ℝ) < 1 / ((i + 2 : ℕ) : ℝ) := by positivity
  have hi1 : (0 : ℝ) < 1 / (((i + 2 : ℕ) : ℝ) - 1) := by
    refine one_div_pos.mpr ?_
    push_cast
    have : (0 : ℝ) ≤ i := Nat.cast_nonneg i
    linarith
  have a0 := Real.rpow_pos_of_pos ha (1 / ((i + 2 : ℕ) : ℝ))
  have a1 := Real.rpow_lt_one ha.le ha1 hi
  have b0 := Real.rpow_pos_of_pos hb (1 / (((i + 2 : ℕ) : ℝ) - 1))
  have b1 := Real.rpow_lt_one hb.le hb1 hi1
  unfold PS.nuphazX
  dsimp only
  rw [show i + 2 - 1 = i + 1 by omega]
  generalize d.a ^ (1 / ((i + 2 : ℕ) : ℝ)) = va at *
  generalize d.b ^ (1 / (((i + 2 : ℕ) : ℝ) - 1)) = vb at *
  split
  · refine ⟨va * vb, by positivity, by nlinarith, ?_⟩
    field_simp
  · refine ⟨va, a0, a1, ?_⟩
    field_simp

theorem nuphazPick_spec (draws : ℕ → PS.Draw)
    (hd : ∀ i, 0 < (draws i).a ∧ (draws i).a < 1 ∧ 0 < (draws i).b ∧ (draws i).b < 1) :
    ∀ (k : ℕ) (g : PS), Configured g → k < g.n → 1 ≤ k → g.mSum k ≤ g.M k →
      (0 < g.m 0 + g.m 1 ∨ g.mSum k < g.M k) →
      ∃ M, PS.nuphazPick draws k g = { g with M := M } ∧ M 0 = g.m 0 ∧ (∀ j, k ≤ j → M j = g.M j) ∧
        (∀ i < k, M i + g.m (i + 1) ≤ M (i + 1) ∧ 0 < M (i + 1)) ∧
        (g.mSum k < g.M k → ∀ i < k, g.mSum (i + 1) < M (i + 1) ∧
          (1 ≤ i → M i + g.m (i + 1) < M (i + 1))) := by
  intro k
  induction k with
  | zero => exact fun g _ _ h => absurd h (by omega)
  | succ k ih =>
    intro g hg hk _ hM hp
    rcases k with _ | k
    · refine ⟨g.M, rfl, hg.first, fun j hj => rfl, fun i hi => ?_, fun hlt i hi => ?_⟩
      swap
      · obtain rfl : i = 0 := by omega
        exact ⟨hlt, fun h => absurd h (by omega)⟩
      obtain rfl : i = 0 := by omega
      have h1 : g.mSum 1 = g.m 0 + g.m 1 := by rw [hg.sums]; rfl
      rw [hg.first]
      have h0 := hg.nonneg 0 (by omega)
      have h2 := hg.nonneg 1 (by omega)
      simp only [zero_add] at *
      refine ⟨by linarith, ?_⟩
      rcases hp with h | h <;> linarith
    · have hS : g.mSum (k + 2) = g.mSum (k + 1) + g.m (k + 2) := by rw [hg.sums]; rfl
      have hS0 : 0 ≤ g.mSum (k + 1) := by rw [hg.sums]; exact sums_nonneg hg.nonneg _ (by omega)
      have hm0 := hg.nonneg (k + 2) hk
      have hS1 : g.m 0 + g.m 1 ≤ g.mSum (k + 1) := by
        rw [hg.sums]
        exact sums_mono (i := 1) hg.nonneg (by omega) (by omega)
      have hMpos : 0 < g.M (k + 2) := by
        simp only [Nat.add_assoc, Nat.reduceAdd] at hM hp
        rcases hp with h | h <;> linarith
      obtain ⟨d1, d2, d3, d4⟩ := hd (k + 2)
      have hle : g.mSum (k + 1) + g.m (k + 2) ≤ g.M (k + 2) := by rw [← hS]; exact hM
      obtain ⟨v, v0, v1, hv⟩ := nuphazX_range g (draws (k + 2)) k d1 d2 d3 d4 hMpos hS0 hm0 hle
      generalize hx : g.nuphazX (draws (k + 2)) (k + 2) = x at *
      have hsq : g.mSum (k + 1) ^ 2 ≤ (g.M (k + 2) - g.m (k + 2)) ^ 2 :=
        pow_le_pow_left₀ hS0 (by linarith) 2
      have hx0 : 0 ≤ x := by
        have : 0 ≤ g.M (k + 2) ^ 2 * x := by rw [hv]; nlinarith
        exact nonneg_of_mul_nonneg_right this (by positivity)
      have hnew : (g.M (k + 2) * Real.sqrt x) ^ 2 = g.M (k + 2) ^ 2 * x := by
        rw [mul_pow, Real.sq_sqrt hx0]
      have hnew0 : 0 ≤ g.M (k + 2) * Real.sqrt x := mul_nonneg hMpos.le (Real.sqrt_nonneg _)
      rw [hv] at hnew
      obtain ⟨M, e, h0, hfr, hst, hstr⟩ := ih
        { g with M := Function.update g.M (k + 1) (g.M (k + 2) * Real.sqrt x) }
        ⟨hg.two, hg.nonneg, hg.sums, by
          dsimp only
          rw [Function.update_of_ne (by omega)]
          exact hg.first⟩ (by dsimp only; omega) (by omega)
        (by
          dsimp only
          rw [Function.update_self]
          refine abs_le_of_sq_le_sq' (b := g.M (k + 2) * Real.sqrt x) ?_ hnew0 |>.2
          rw [hnew]
          nlinarith)
        (by
          dsimp only
          rcases hp with h | h
          · exact Or.inl h
          · right
            rw [Function.update_self]
            have h' : g.mSum (k + 1) < g.M (k + 2) - g.m (k + 2) := by
              have : g.mSum (k + 2) < g.M (k + 2) := h
              linarith
            have hsq' : g.mSum (k + 1) ^ 2 < (g.M (k + 2) - g.m (k + 2)) ^ 2 :=
              pow_lt_pow_left₀ h' hS0 (by norm_num)
            refine lt_of_pow_lt_pow_left₀ 2 hnew0 ?_
            rw [hnew]
            nlinarith [mul_pos v0 (sub_pos.mpr hsq')])
      refine ⟨M, ?_, h0, ?_, ?_, ?_⟩
      · rw [← hx] at e
        exact e
      · intro j hj
        rw [hfr j (by omega)]
        dsimp only
        rw [Function.update_of_ne (by omega)]
      · intro i hi
        by_cases hik : i = k + 1
        · subst hik
          rw [hfr (k + 1) (le_refl _), hfr (k + 1 + 1) (by omega)]
          dsimp only
          rw [Function.update_self, Function.update_of_ne (by omega)]
          refine ⟨?_, hMpos⟩
          have : g.M (k + 2) * Real.sqrt x ≤ g.M (k + 2) - g.m (k + 2) := by
            refine (abs_le_of_sq_le_sq' (b := g.M (k + 2) - g.m (k + 2)) ?_ (by linarith)).2
            rw [hnew]
            nlinarith
          show _ + g.m (k + 2) ≤ g.M (k + 2)
          linarith
        · exact hst i (by omega)
      · intro hlt i hi
        have h' : g.mSum (k + 1) < g.M (k + 2) - g.m (k + 2) := by
          have : g.mSum (k + 2) < g.M (k + 2) := hlt
          linarith
        have hsq' : g.mSum (k + 1) ^ 2 < (g.M (k + 2) - g.m (k + 2)) ^ 2 :=
          pow_lt_pow_left₀ h' hS0 (by norm_num)
        by_cases hik : i = k + 1
        · subst hik
          rw [hfr (k + 1) (le_refl _), hfr (k + 1 + 1) (by omega)]
          dsimp only
          rw [Function.update_self, Function.update_of_ne (by omega)]
          refine ⟨hlt, fun _ => ?_⟩
          have : g.M (k + 2) * Real.sqrt x < g.M (k + 2) - g.m (k + 2) := by
            refine lt_of_pow_lt_pow_left₀ 2 (by linarith) ?_
            rw [hnew]
            nlinarith [mul_pos (sub_pos.mpr v1) (sub_pos.mpr hsq')]
          show _ + g.m (k + 2) < g.M (k + 2)
          linarith
        · refine hstr ?_ i (by omega)
          dsimp only
          rw [Function.update_self]
          refine lt_of_pow_lt_pow_left₀ 2 hnew0 ?_
          rw [hnew]
          nlinarith [mul_pos v0 (sub_pos.mpr hsq')]

theorem pickMasses_nuphaz (g : PS) (hg : Configured g) {W : ℝ} (hW : g.mSum (g.n - 1) ≤ W)
    (hp : 0 < g.m 0 + g.m 1 ∨ g.mSum (g.n - 1) < W) (hw : g.weightType = .nuphaz) {draws : ℕ → PS.Draw}
    (hd : ∀ i, 0 < (draws i).a ∧ (draws i).a < 1 ∧ 0 < (draws i).b ∧ (draws i).b < 1) (r : List ℝ) :
    ∃ M, g.pickMasses W draws r = { g with M := M } ∧ ValidMasses g.n g.m M ∧ M (g.n - 1) = W := by
  have hn := hg.two
  have e : g.pickMasses W draws r =
      PS.nuphazPick draws (g.n - 1) { g with M := Function.update g.M (g.n - 1) W } := by
    unfold PS.pickMasses
    dsimp only
    rw [hw]
  obtain ⟨M, e', h0, hfr, hst, _⟩ := nuphazPick_spec draws hd (g.n - 1)
    { g with M := Function.update g.M (g.n - 1) W }
    ⟨hn, hg.nonneg, hg.sums, by
      dsimp only
      rw [Function.update_of_ne (by omega)]
      exact hg.first⟩ (by dsimp only; omega) (by omega)
    (by dsimp only; rw [Function.update_self]; exact hW)
    (by
      dsimp only
      rw [Function.update_self]
      exact hp)
  refine ⟨M, by rw [e, e'], ⟨hg.nonneg, h0, fun i hi => (hst i (by omega)).1,
    fun i hi => (hst i (by omega)).2⟩, ?_⟩
  rw [hfr _ (le_refl _)]
  exact Function.update_self _ _ _

/-- **C51, masses.** For both ways of picking and all random numbers the picked masses are possible. -/
theorem pickMasses_valid (g : PS) (hg : Configured g) {W : ℝ} (hW : g.mSum (g.n - 1) ≤ W)
    (hp : 0 < g.m 0 + g.m 1 ∨ g.mSum (g.n - 1) < W) {rnd : PS.Randoms} (hr : Rnd g.n rnd) :
    ∃ M, g.pickMasses W rnd.draws rnd.r = { g with M := M } ∧ ValidMasses g.n g.m M ∧
      M (g.n - 1) = W := by
  by_cases hw : g.weightType = .nuphaz
  · exact pickMasses_nuphaz g hg hW hp hw hr.draws _
  · exact pickMasses_default g hg hW hp hw _ hr.len hr.r

/-- masses strictly inside of the possible region -/
structure Inside (n : ℕ) (m M : ℕ → ℝ) : Prop where
  above : ∀ i, i + 1 < n → PS.sums m (i + 1) < M (i + 1)
  step : ∀ i, i + 2 < n → M (i + 1) + m (i + 2) < M (i + 2)

/-- NUPHAZ picks masses strictly inside of the region -/
theorem pickMasses_nuphaz_inside (g : PS) (hg : Configured g) {W : ℝ}
    (hW : g.mSum (g.n - 1) < W) (hw : g.weightType = .nuphaz) {draws : ℕ → PS.Draw}
    (hd : ∀ i, 0 < (draws i).a ∧ (draws i).a < 1 ∧ 0 < (draws i).b ∧ (draws i).b < 1) (r : List ℝ) :
    Inside g.n g.m (g.pickMasses W draws r).M := by
  have hn := hg.two
  have e : g.pickMasses W draws r =
      PS.nuphazPick draws (g.n - 1) { g with M := Function.update g.M (g.n - 1) W } := by
    unfold PS.pickMasses
    dsimp only
    rw [hw]
  have hlt : g.mSum (g.n - 1) < Function.update g.M (g.n - 1) W (g.n - 1) := by
    rw [Function.update_self]; exact hW
  obtain ⟨M, e', h0, hfr, _, hst⟩ := nuphazPick_spec draws hd (g.n - 1)
    { g with M := Function.update g.M (g.n - 1) W }
    ⟨hn, hg.nonneg, hg.sums, by
      dsimp only
      rw [Function.update_of_ne (by omega)]
      exact hg.first⟩ (by dsimp only; omega) (by omega) hlt.le (Or.inr hlt)
  rw [e, e']
  refine ⟨fun i hi => ?_, fun i hi => ?_⟩
  · have := (hst hlt i (by omega)).1
    rw [← hg.sums]
    exact this
  · exact (hst hlt (i + 1) (by omega)).2 (by omega)

/-- the default way, too; this is why the random numbers have to be different -/
theorem pickMasses_default_inside (g : PS) (hg : Configured g) {W : ℝ} (hW : g.mSum (g.n - 1) < W)
    (hw : g.weightType ≠ .nuphaz) (draws : ℕ → PS.Draw)
    {r : List ℝ} (hl : r.length = g.n - 2) (hr : ∀ x ∈ r, 0 < x ∧ x < 1) (hnd : r.Nodup) :
    Inside g.n g.m (g.pickMasses W draws r).M := by
  have hn := hg.two
  have e : g.pickMasses W draws r = { g with M := (fun i => if 1 ≤ i ∧ i < g.n - 1 then
      g.mSum i + (r.insertionSort (· ≤ ·)).getD (i - 1) 0 * (W - g.mSum (g.n - 1))
      else Function.update g.M (g.n - 1) W i) } := by
    unfold PS.pickMasses
    dsimp only
    split
    · rename_i h
      exact absurd h hw
    · rfl
  have hs := List.pairwise_insertionSort (· ≤ ·) r
  have hsl : (r.insertionSort (· ≤ ·)).length = g.n - 2 := by rw [List.length_insertionSort, hl]
  have hsn : (r.insertionSort (· ≤ ·)).Nodup := (List.perm_insertionSort _ r).nodup_iff.mpr hnd
  have hsr : ∀ i, i < g.n - 2 → 0 < (r.insertionSort (· ≤ ·)).getD i 0 ∧
      (r.insertionSort (· ≤ ·)).getD i 0 < 1 := by
    intro i hi
    rw [List.getD_eq_getElem _ _ (by omega)]
    exact hr _ ((List.mem_insertionSort _).mp (List.getElem_mem _))
  have hsm : ∀ i, i + 1 < g.n - 2 → (r.insertionSort (· ≤ ·)).getD i 0
      < (r.insertionSort (· ≤ ·)).getD (i + 1) 0 := by
    intro i hi
    rw [List.getD_eq_getElem _ _ (by omega), List.getD_eq_getElem _ _ (by omega)]
    refine lt_of_le_of_ne (List.pairwise_iff_getElem.mp hs _ _ _ _ (Nat.lt_succ_self i)) ?_
    intro h
    have := (List.Nodup.getElem_inj_iff hsn).mp h
    omega
  generalize r.insertionSort (· ≤ ·) = s at *
  rw [e]
  have hD : 0 < W - g.mSum (g.n - 1) := by linarith
  refine ⟨fun i hi => ?_, fun i hi => ?_⟩
  · dsimp only
    rw [← hg.sums]
    by_cases h1 : i + 1 < g.n - 1
    · rw [if_pos ⟨by omega, h1⟩]
      have := mul_pos (hsr (i + 1 - 1) (by omega)).1 hD
      linarith
    · rw [if_neg (by omega), show i + 1 = g.n - 1 by omega, Function.update_self]
      exact hW
  · dsimp only
    have hS : g.mSum (i + 2) = g.mSum (i + 1) + g.m (i + 2) := by rw [hg.sums]; rfl
    rw [if_pos ⟨by omega, by omega⟩]
    by_cases h1 : i + 2 < g.n - 1
    · rw [if_pos ⟨by omega, h1⟩]
      have := mul_lt_mul_of_pos_right (hsm i (by omega)) hD
      rw [show i + 1 - 1 = i by omega, show i + 2 - 1 = i + 1 by omega]
      linarith
    · rw [if_neg (by omega), show i + 2 = g.n - 1 by omega, Function.update_self]
      rw [show i + 2 = g.n - 1 by omega] at hS
      have := mul_lt_mul_of_pos_right (hsr (i + 1 - 1) (by omega)).2 hD
      linarith

end Rpwa.Gen
