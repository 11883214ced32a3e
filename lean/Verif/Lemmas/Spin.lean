import Verif.Model.Spin
/-! Helper lemmas for the spin model. -/
namespace Rpwa.Spin

theorem isOdd_iff (v : Int) : isOdd v = true ↔ v % 2 = 1 := by simp [isOdd]
theorem isEven_iff (v : Int) : isEven v = true ↔ v % 2 = 0 := by
  simp [isEven, isOdd]; omega
theorem isOdd_false_iff (v : Int) : isOdd v = false ↔ v % 2 = 0 := by
  simp [isOdd]; omega

theorem mem_stepLoop (fuel : Nat) (lo hi J : Int) (hf : hi - lo + 2 ≤ fuel) :
    J ∈ stepLoop fuel lo hi ↔ lo ≤ J ∧ J ≤ hi ∧ (J - lo) % 2 = 0 := by
  induction fuel generalizing lo with
  | zero => simp [stepLoop]; omega
  | succ n ih =>
    unfold stepLoop
    split
    · rw [List.mem_cons, ih (lo + 2) (by omega)]; omega
    · simp; omega

theorem mem_stepBy2 (lo hi J : Int) :
    J ∈ stepBy2 lo hi ↔ lo ≤ J ∧ J ≤ hi ∧ (J - lo) % 2 = 0 :=
  mem_stepLoop _ _ _ _ (by omega)

theorem stepLoop_pairwise (fuel : Nat) (lo hi : Int) :
    (stepLoop fuel lo hi).Pairwise (· < ·) ∧ ∀ J ∈ stepLoop fuel lo hi, lo ≤ J := by
  induction fuel generalizing lo with
  | zero => simp [stepLoop]
  | succ n ih =>
    unfold stepLoop
    split
    · obtain ⟨h1, h2⟩ := ih (lo + 2)
      refine ⟨List.pairwise_cons.2 ⟨fun J hJ => by have := h2 J hJ; omega, h1⟩, ?_⟩
      intro J hJ
      rcases List.mem_cons.1 hJ with rfl | h
      · omega
      · have := h2 J h; omega
    · simp

theorem stepBy2_sorted (lo hi : Int) : (stepBy2 lo hi).Pairwise (· < ·) :=
  (stepLoop_pairwise _ _ _).1

theorem powMinusOne_eq (e : Int) : (e % 2 = 0 ∧ powMinusOne e = 1) ∨ (e % 2 = 1 ∧ powMinusOne e = -1) := by
  unfold powMinusOne
  by_cases h : e % 2 = 1
  · right; simp [h]
  · left; simp [h]; omega

theorem spinQnLargerEqual_spec (q lower : Int) :
    q ≤ spinQnLargerEqual q lower ∧ lower ≤ spinQnLargerEqual q lower ∧
    (spinQnLargerEqual q lower - q) % 2 = 0 ∧
    (spinQnLargerEqual q lower = q ∨ spinQnLargerEqual q lower ≤ lower + 1) := by
  unfold spinQnLargerEqual
  by_cases hq : q % 2 = 1 <;> by_cases hl : lower % 2 = 1 <;>
    simp [isOdd, isEven, hq, hl] <;> omega

theorem spinQnSmallerEqual_spec (q upper : Int) :
    spinQnSmallerEqual q upper ≤ q ∧ spinQnSmallerEqual q upper ≤ upper ∧
    (spinQnSmallerEqual q upper - q) % 2 = 0 ∧
    (spinQnSmallerEqual q upper = q ∨ upper - 1 ≤ spinQnSmallerEqual q upper) := by
  unfold spinQnSmallerEqual
  by_cases hq : q % 2 = 1 <;> by_cases hl : upper % 2 = 1 <;>
    simp [isOdd, isEven, hq, hl] <;> omega

theorem canCouple_iff (j1 j2 J : Int) (p1 : 0 ≤ j1) (p2 : 0 ≤ j2) :
    spinStatesCanCouple j1 j2 J = true ↔
      (j1 - j2 ≤ J ∧ j2 - j1 ≤ J ∧ J ≤ j1 + j2 ∧ ∃ k, j1 + j2 = J + 2 * k) := by
  unfold spinStatesCanCouple
  have h : getSpinRange j1 j2 = ⟨((j1 - j2).natAbs : Int), j1 + j2, true⟩ := by
    unfold getSpinRange; simp; omega
  rw [h]
  simp only [isOdd]
  constructor
  · intro hc
    by_cases hr : J < ((j1 - j2).natAbs : Int) ∨ J > j1 + j2
    · simp [hr] at hc
    · by_cases ho : (j1 + j2 - J) % 2 = 1
      · simp [ho] at hc
      · exact ⟨by omega, by omega, by omega, (j1 + j2 - J) / 2, by omega⟩
  · rintro ⟨h3, h4, h5, k, hk⟩
    have hr : ¬ (J < ((j1 - j2).natAbs : Int)) := by omega
    have hr' : ¬ (J > j1 + j2) := by omega
    have ho : ¬ ((j1 + j2 - J) % 2 = 1) := by omega
    simp [hr, hr', ho]

end Rpwa.Spin
