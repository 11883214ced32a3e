import Verif.Props.DataObj
/-! # C107: a mass bin without weight matrix does not take part in a fit -/
namespace Rpwa.DataObj

open Rpwa.Arrays

/-- **C107, finding.** An accepted mass bin without weight matrix contributes zero to the sum that is minimized, whatever the model says about its
spin-density matrix, if the sum is calculated from the stored blocks. -/
theorem missing_matrix_silent {K : Type} (a : Args K) (hT : Typed a) (O : Obj K) (hO : construct a = .ok O) (D : ResFit.Data)
    (hD : ∀ b m i j (c d : Fin 2), D.rhoCovInv b m i j c d = O.rhoCovInvArray.elem [b, m, i, j, c, d]) (hcov : D.useCov ≠ .full)
    (b n k c : ℕ) (hb : a.nrWaves[b]? = some n) (hc : a.nrMassBins[b]? = some c) (hk : k < c)
    (hmiss : (a.spinDensityMatrixElementsCovMatInv.elem [b, k]).rows = 0) (i j : ℕ) (hij : i ≤ j) (hj : j < n) (z : ℂ) :
    ResFit.rhoTerm D b k i j z = some 0 := by
  obtain ⟨w, m, h, hI⟩ := construct_accepts a hT O hO
  obtain ⟨hc', rfl⟩ := List.getElem?_eq_some_iff.1 hc
  have hm := h.mMax.2 _ (List.getElem_mem hc')
  have hz : ∀ u v : Fin 2, D.rhoCovInv b k i j u v = 0 := by
    intro u v
    rw [hD, hI.arr b n k i j u v hb (by omega) hij hj, if_pos hmiss]
  unfold ResFit.rhoTerm
  dsimp only
  simp only [hz, mul_zero, zero_mul, add_zero]
  split
  · rfl
  · cases hu : D.useCov with
    | full => exact absurd hu hcov
    | diagonalOnly => rfl
    | complexDiagonalOnly => rfl

/-- the second mass bin of the first bin of the example has no matrix. -/
theorem ex_missing : ∃ O D, construct exArgs = .ok O ∧ (∀ b m i j (c d : Fin 2), ResFit.Data.rhoCovInv D b m i j c d = O.rhoCovInvArray.elem [b, m, i, j, c, d]) ∧
    D.useCov ≠ .full ∧ ResFit.rhoTerm D 0 1 0 0 5 = some 0 ∧ ResFit.rhoTerm D 0 0 0 0 5 = some 75 := by
  obtain ⟨O, h1, h2⟩ := construct_consistent exArgs 2 2 exArgs_consistent
  let D : ResFit.Data := ⟨fun _ _ _ => (0, 0), fun _ _ _ _ => 0, fun b m i j c d => O.rhoCovInvArray.elem [b, m, i, j, c, d], fun _ _ _ => 0,
    fun _ _ _ _ => 0, .diagonalOnly⟩
  refine ⟨O, D, h1, fun _ _ _ _ _ _ => rfl, by simp [D], ?_, ?_⟩
  · exact missing_matrix_silent exArgs exArgs_typed O h1 D (fun _ _ _ _ _ _ => rfl) (by simp [D]) 0 1 1 2 rfl rfl (by decide) (by simp [exArgs]) 0 0
      (le_refl _) (by decide) 5
  · have e := h2.arr 0 1 0 0 0 0 0 rfl (by decide) (le_refl _) (by decide)
    have e' : O.rhoCovInvArray.elem [0, 0, 0, 0, 0, 0] = 3 := by
      refine Eq.trans e ?_
      simp [exArgs]
    unfold ResFit.rhoTerm
    rw [if_pos rfl]
    change some ((5 : ℂ).re * O.rhoCovInvArray.elem [0, 0, 0, 0, 0, 0] * (5 : ℂ).re) = some 75
    rw [e']
    norm_num

end Rpwa.DataObj
