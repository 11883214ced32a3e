import Verif.Props.PhaseSpaceDensity

/-!
# C52: GENBOD weights are proportional to the phase-space density
-/

namespace Rpwa.Gen

open Spec

/-- the largest momenta depend only on the masses of the particles and of the n-body system -/
theorem genbodLoop_congr {g g0 : PS} (hn : g.n = g0.n) (hm : g.m = g0.m) (hs : g.mSum = g0.mSum)
    (hM : g.M (g.n - 1) = g0.M (g0.n - 1)) : ∀ k, g.genbodLoop k = g0.genbodLoop k
  | 0 => by
    unfold PS.genbodLoop
    rw [hM, hs, hm, hn]
  | i + 1 => by
    unfold PS.genbodLoop
    rw [genbodLoop_congr hn hm hs hM i, hm, hs]

/-- above threshold the breakup momentum is positive -/
theorem breakup_pos {M m1 m2 q : ℝ} (h1 : 0 ≤ m1) (h2 : 0 ≤ m2) (h : m1 + m2 < M)
    (hq : Phys.breakupMomentum M m1 m2 = some q) : 0 < q := by
  have hM : 0 < M := by linarith
  obtain ⟨v, ev, hv0, hv, _⟩ := breakup_spec hM h1 h2 h.le
  rw [hq] at ev
  cases ev
  rcases lt_or_eq_of_le hv0 with h0 | h0
  · exact h0
  · exfalso
    rw [← h0] at hv
    have e : ((M ^ 2 + m1 ^ 2 - m2 ^ 2) / (2 * M)) ^ 2 - m1 ^ 2
        = ((M - (m1 + m2)) * (M + (m1 + m2)) * (M - (m1 - m2)) * (M + (m1 - m2))) / (4 * M ^ 2) := by
      field_simp
      ring
    rw [e] at hv
    have : 0 < ((M - (m1 + m2)) * (M + (m1 + m2)) * (M - (m1 - m2)) * (M + (m1 - m2))) / (4 * M ^ 2) := by
      refine div_pos (mul_pos (mul_pos (mul_pos ?_ ?_) ?_) ?_) (by positivity) <;> linarith
    rw [← hv] at this
    norm_num at this

/-- the product of the largest momenta is positive above threshold -/
theorem genbodLoop_pos (g : PS) (hs : g.mSum = PS.sums g.m) (hm : ∀ i < g.n, 0 ≤ g.m i)
    (hW : g.mSum (g.n - 1) < g.M (g.n - 1)) :
    ∀ k, k < g.n → ∃ p, g.genbodLoop k = some (g.M (g.n - 1) - g.mSum (g.n - 1) + g.mSum k, p) ∧ 0 < p := by
  intro k
  induction k with
  | zero =>
    intro _
    refine ⟨1, ?_, one_pos⟩
    unfold PS.genbodLoop
    rw [show g.mSum 0 = g.m 0 by rw [hs]; rfl]
  | succ k ih =>
    intro hk
    obtain ⟨p, e, h0⟩ := ih (by omega)
    have h3 : g.mSum (k + 1) = g.mSum k + g.m (k + 1) := by rw [hs]; rfl
    have hS0 : 0 ≤ g.mSum k := by rw [hs]; exact sums_nonneg hm k (by omega)
    have hmk := hm (k + 1) hk
    have hlt : g.mSum k + g.m (k + 1) < g.M (g.n - 1) - g.mSum (g.n - 1) + g.mSum (k + 1) := by
      rw [h3]; linarith
    obtain ⟨v, ev, _⟩ := breakup_spec (by linarith) hS0 hmk hlt.le
    refine ⟨p * v, ?_, mul_pos h0 (breakup_pos hS0 hmk hlt ev)⟩
    unfold PS.genbodLoop
    rw [e]
    show (Phys.breakupMomentum (g.M (g.n - 1) - g.mSum (g.n - 1) + g.mSum k + g.m (k + 1)) (g.mSum k)
      (g.m (k + 1))).bind _ = _
    rw [show g.M (g.n - 1) - g.mSum (g.n - 1) + g.mSum k + g.m (k + 1)
      = g.M (g.n - 1) - g.mSum (g.n - 1) + g.mSum (k + 1) by rw [h3]; ring, ev]
    rfl

/-- **C52, GENBOD.** Above threshold the weight is the phase-space density up to a constant that depends
only on the masses of the particles and of the n-body system (the masses of the subsystems are picked
uniformly). -/
theorem weight_genbod_density (n : ℕ) (hn : 2 ≤ n) (m : ℕ → ℝ) (hm : ∀ i < n, 0 ≤ m i) (W : ℝ)
    (hW : PS.sums m (n - 1) < W) :
    ∃ C, 0 < C ∧ ∀ g : PS, g.n = n → g.m = m → g.mSum = PS.sums m → g.weightType = .genbod →
      ValidMasses n m g.M → g.M (n - 1) = W →
      ∃ g', g.calcWeight = some g' ∧ g'.weight * C = density m g.M (n - 1) := by
  obtain ⟨k, rfl⟩ : ∃ k, n = k + 2 := ⟨n - 2, by omega⟩
  have hW0 : 0 < W := lt_of_le_of_lt (sums_nonneg hm (k + 1) (by omega)) hW
  obtain ⟨p, ep, hp⟩ := genbodLoop_pos { PS.new with n := k + 2, m := m, mSum := PS.sums m, M := fun _ => W }
    rfl hm hW (k + 1) (by show k + 1 < k + 2; omega)
  have hpi := Real.pi_pos
  refine ⟨p / (2 * (2 * Real.pi) ^ (2 * k + 1) * W), by positivity, ?_⟩
  intro g hgn hgm hgs hgw hv hM
  have hv' : ValidMasses g.n g.m g.M := by rw [hgn, hgm]; exact hv
  obtain ⟨q, e, _, hb⟩ := calcWeight_eq g (by omega) (by rw [hgs, hgm]) hv'
  refine ⟨_, e, ?_⟩
  have hd := density_eq hv' hb k (by omega)
  rw [show k + 2 - 1 = k + 1 by omega] at hM ⊢
  rw [hgm, hM] at hd
  rw [hd]
  have el := genbodLoop_congr (g := g)
    (g0 := { PS.new with n := k + 2, m := m, mSum := PS.sums m, M := fun _ => W }) hgn hgm hgs
    (by rw [hgn]; exact hM) (k + 1)
  dsimp only
  unfold weightOf
  rw [hgw]
  dsimp only
  rw [hgn, show k + 2 - 1 = k + 1 by omega, el, ep]
  show PS.momProd q (k + 1) / p * _ = _
  field_simp

end Rpwa.Gen
