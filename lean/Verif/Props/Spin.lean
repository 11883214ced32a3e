import Verif.Lemmas.Spin
/-!
# C01, C02: spin ranges and exotic quantum numbers

Specifications (independent of the model):
* `Triangle a b J`: the angular-momentum triangle rule in units of hbar/2;
* `QuarkModelJPC`, `QuarkModelIGJP`: a quark-antiquark state with orbital angular momentum `L`,
  spin `S ∈ {0, 1}` and total spin `J` (in hbar) has these quantum numbers.
-/
namespace Rpwa.Spin

/-- Two angular momenta `a/2` and `b/2` couple to `J/2`: `|a-b| ≤ J ≤ a+b` in integer steps. -/
def Triangle (a b J : Int) : Prop := a - b ≤ J ∧ b - a ≤ J ∧ J ≤ a + b ∧ ∃ k, a + b = J + 2 * k

/-- A `q q̄` state with quantum numbers `J^{PC}` exists (spins in units of hbar). -/
def QuarkModelJPC (J P C : Int) : Prop :=
  ∃ L S : Nat, (S = 0 ∨ S = 1) ∧ (L : Int) - S ≤ J ∧ (S : Int) - L ≤ J ∧ J ≤ L + S ∧
    P = (-1) ^ (L + 1) ∧ C = (-1) ^ (L + S)

/-- A `q q̄` state with quantum numbers `I^G J^P` exists (spins in units of hbar). -/
def QuarkModelIGJP (I : Nat) (G J P : Int) : Prop :=
  ∃ L S : Nat, (S = 0 ∨ S = 1) ∧ (L : Int) - S ≤ J ∧ (S : Int) - L ≤ J ∧ J ≤ L + S ∧
    P = (-1) ^ (L + 1) ∧ G = (-1) ^ (I + L + S)

/-- C01: walking over the returned range visits exactly the spins allowed by the triangle rule,
each once and in increasing order; the range is flagged valid; it is never empty. -/
theorem getSpinRange_exact (a b : Int) (ha : 0 ≤ a) (hb : 0 ≤ b) :
    (getSpinRange a b).valid = true ∧
    (∀ J, J ∈ stepBy2 (getSpinRange a b).lo (getSpinRange a b).hi ↔ Triangle a b J) ∧
    (stepBy2 (getSpinRange a b).lo (getSpinRange a b).hi).Pairwise (· < ·) := by
  have h : getSpinRange a b = ⟨((a - b).natAbs : Int), a + b, true⟩ := by
    unfold getSpinRange; simp; omega
  rw [h]
  refine ⟨rfl, fun J => ?_, stepBy2_sorted _ _⟩
  rw [mem_stepBy2]
  simp only [Triangle]
  constructor
  · rintro ⟨h1, h2, h3⟩
    exact ⟨by omega, by omega, h2, ⟨(a + b - J) / 2, by omega⟩⟩
  · rintro ⟨h1, h2, h3, k, hk⟩
    omega

example : (0 : Int) ≤ 3 ∧ (0 : Int) ≤ 2 ∧ Triangle 3 2 5 ∧ ¬ Triangle 3 2 4 := by
  refine ⟨by decide, by decide, ⟨by decide, by decide, by decide, 0, by decide⟩, ?_⟩
  rintro ⟨-, -, -, k, hk⟩; omega

/-- C01: negative spins are reported invalid and the returned range is empty. -/
theorem getSpinRange_negative (a b : Int) (h : a < 0 ∨ b < 0) :
    (getSpinRange a b).valid = false ∧
    stepBy2 (getSpinRange a b).lo (getSpinRange a b).hi = [] := by
  have : getSpinRange a b = ⟨0, -1, false⟩ := by unfold getSpinRange; simp; omega
  rw [this]; exact ⟨rfl, by decide⟩

example : ((-1 : Int) < 0 ∨ (2 : Int) < 0) := by decide

/-- C01: the restricted range visits exactly the triangle-allowed spins inside the demanded range. -/
theorem getSpinRangeIn_exact (a b dlo dhi : Int) (ha : 0 ≤ a) (hb : 0 ≤ b) :
    (∀ J, J ∈ stepBy2 (getSpinRangeIn a b dlo dhi).lo (getSpinRangeIn a b dlo dhi).hi ↔
      Triangle a b J ∧ dlo ≤ J ∧ J ≤ dhi) ∧
    (stepBy2 (getSpinRangeIn a b dlo dhi).lo (getSpinRangeIn a b dlo dhi).hi).Pairwise (· < ·) := by
  have h : getSpinRange a b = ⟨((a - b).natAbs : Int), a + b, true⟩ := by
    unfold getSpinRange; simp; omega
  unfold getSpinRangeIn
  rw [h]
  simp only [Bool.not_true, Bool.false_eq_true, if_false]
  refine ⟨fun J => ?_, stepBy2_sorted _ _⟩
  rw [mem_stepBy2]
  obtain ⟨a1, a2, a3, a4⟩ := spinQnLargerEqual_spec ((a - b).natAbs : Int) dlo
  obtain ⟨b1, b2, b3, b4⟩ := spinQnSmallerEqual_spec (a + b) dhi
  generalize spinQnLargerEqual ((a - b).natAbs : Int) dlo = lo at *
  generalize spinQnSmallerEqual (a + b) dhi = hi at *
  simp only [Triangle]
  constructor
  · rintro ⟨h1, h2, h3⟩
    exact ⟨⟨by omega, by omega, by omega, ⟨(a + b - J) / 2, by omega⟩⟩, by omega, by omega⟩
  · rintro ⟨⟨h1, h2, h3, k, hk⟩, h4, h5⟩
    omega

example : (4 : Int) ∈ stepBy2 (getSpinRangeIn 4 2 3 5).lo (getSpinRangeIn 4 2 3 5).hi := by decide

/-- C01: the restricted range is flagged valid exactly when some spin satisfies both conditions
(and never for negative spins). -/
theorem getSpinRangeIn_valid_iff (a b dlo dhi : Int) :
    (getSpinRangeIn a b dlo dhi).valid = true ↔
      0 ≤ a ∧ 0 ≤ b ∧ ∃ J, Triangle a b J ∧ dlo ≤ J ∧ J ≤ dhi := by
  by_cases hneg : a < 0 ∨ b < 0
  · have : getSpinRange a b = ⟨0, -1, false⟩ := by unfold getSpinRange; simp; omega
    unfold getSpinRangeIn; rw [this]
    simp; intro h1 h2; omega
  · have ha : 0 ≤ a := by omega
    have hb : 0 ≤ b := by omega
    have hex := (getSpinRangeIn_exact a b dlo dhi ha hb).1
    have hv : (getSpinRangeIn a b dlo dhi).valid = true ↔
        (getSpinRangeIn a b dlo dhi).lo ≤ (getSpinRangeIn a b dlo dhi).hi := by
      have h : getSpinRange a b = ⟨((a - b).natAbs : Int), a + b, true⟩ := by
        unfold getSpinRange; simp; omega
      unfold getSpinRangeIn; rw [h]; simp
    rw [hv]
    constructor
    · intro hle
      refine ⟨ha, hb, (getSpinRangeIn a b dlo dhi).lo, ?_⟩
      rw [← hex, mem_stepBy2]; omega
    · rintro ⟨-, -, J, hJ⟩
      rw [← hex, mem_stepBy2] at hJ; omega

example : (getSpinRangeIn 1 1 1 1).valid = false ∧ (getSpinRangeIn 1 1 1 2).valid = true := by decide

/-- C01: the coupling test of two spins to a third is the triangle rule. -/
theorem spinStatesCanCouple_iff (j1 j2 J : Int) :
    spinStatesCanCouple j1 j2 J = true ↔ 0 ≤ j1 ∧ 0 ≤ j2 ∧ Triangle j1 j2 J := by
  unfold spinStatesCanCouple
  by_cases hneg : j1 < 0 ∨ j2 < 0
  · have : getSpinRange j1 j2 = ⟨0, -1, false⟩ := by unfold getSpinRange; simp; omega
    rw [this]; simp; intro h1 h2; omega
  · have h : getSpinRange j1 j2 = ⟨((j1 - j2).natAbs : Int), j1 + j2, true⟩ := by
      unfold getSpinRange; simp; omega
    rw [h]
    simp only [isOdd, Triangle]
    constructor
    · intro hc
      by_cases hr : J < ((j1 - j2).natAbs : Int) ∨ J > j1 + j2
      · simp [hr] at hc
      · by_cases ho : (j1 + j2 - J) % 2 = 1
        · simp [ho] at hc
        · exact ⟨by omega, by omega, by omega, by omega, by omega, (j1 + j2 - J) / 2, by omega⟩
    · rintro ⟨h1, h2, h3, h4, h5, k, hk⟩
      have hr : ¬ (J < ((j1 - j2).natAbs : Int)) := by omega
      have hr' : ¬ (J > j1 + j2) := by omega
      have ho : ¬ ((j1 + j2 - J) % 2 = 1) := by omega
      simp [hr, hr', ho]

example : spinStatesCanCouple 2 2 4 = true ∧ spinStatesCanCouple 2 2 3 = false := by decide

/-- C01: spin and projection are compatible iff the projection is one of the `2j+1` values
`-j, -j+1, ..., +j`. -/
theorem spinAndProjAreCompatible_iff (s m : Int) :
    spinAndProjAreCompatible s m = true ↔ ∃ k : Nat, m = -s + 2 * k ∧ (k : Int) ≤ s := by
  unfold spinAndProjAreCompatible
  simp only [Bool.and_eq_true, decide_eq_true_eq, isEven_iff]
  constructor
  · rintro ⟨⟨h1, h2⟩, h3⟩
    exact ⟨((m + s) / 2).toNat, by omega, by omega⟩
  · rintro ⟨k, h1, h2⟩
    omega

example : spinAndProjAreCompatible 3 (-1) = true ∧ spinAndProjAreCompatible 3 2 = false := by decide

private theorem negOnePow (n : Nat) : ((-1 : Int) ^ n = 1 ∧ n % 2 = 0) ∨ ((-1 : Int) ^ n = -1 ∧ n % 2 = 1) := by
  induction n with
  | zero => simp
  | succ n ih => rw [Int.pow_succ]; omega

/-- C02: an integer-spin `J^{PC}` (with `J2 = 2J`, both parities defined) is reported exotic iff no
quark-antiquark state has these quantum numbers. -/
theorem jpcIsExotic_iff (J P C : Int) (hJ : 0 ≤ J) (hP : P = 1 ∨ P = -1) (hC : C = 1 ∨ C = -1) :
    jpcIsExotic (2 * J) P C = true ↔ ¬ QuarkModelJPC J P C := by
  have htd : (2 * J).tdiv 2 = J := by rw [Int.mul_tdiv_cancel_left _ (by decide)]
  have hmodel : jpcIsExotic (2 * J) P C = true ↔
      ((J = 0 ∧ P = -1 ∧ C = -1) ∨ (C = -P ∧ P ≠ powMinusOne (J + 1))) := by
    unfold jpcIsExotic
    rw [htd]
    have h1 : (P == 0) = false := by simp; omega
    have h2 : (C == 0) = false := by simp; omega
    have h3 : isOdd (2 * J) = false := by rw [isOdd_false_iff]; omega
    have h4 : decide (2 * J < 0) = false := by simp; omega
    simp only [h1, h2, h3, h4, Bool.or_false, Bool.false_eq_true, if_false]
    split
    · rename_i h; simp at h; simp [h]
    · rename_i h; simp at h
      simp only [bne_iff_ne, ne_eq, Bool.and_eq_true, beq_iff_eq]
      constructor
      · intro h'; right; revert h'; split <;> simp_all
      · rintro (⟨a, b, c⟩ | h')
        · exact absurd c (h a b)
        · simp [h']
  rw [hmodel]
  have hp := powMinusOne_eq (J + 1)
  constructor
  · rintro h ⟨L, S, hS, t1, t2, t3, rfl, rfl⟩
    have e1 := negOnePow (L + 1)
    have e2 := negOnePow (L + S)
    rcases hS with rfl | rfl
    · have : J = L := by omega
      subst this
      rcases h with h | h <;> omega
    · have : (-1 : Int) ^ (L + 1) ≠ 0 := by rcases e1 with e | e <;> omega
      rcases h with h | h
      · have : L = 1 := by omega
        subst this; simp at h
      · omega
  · intro h
    by_cases hpc : C = -P
    · right
      refine ⟨hpc, fun hpe => h ⟨J.toNat, 0, Or.inl rfl, by omega, by omega, by omega, ?_, ?_⟩⟩
      · have e1 := negOnePow (J.toNat + 1); omega
      · have e1 := negOnePow (J.toNat + 0); omega
    · have hpc' : C = P := by omega
      left
      by_cases hJ0 : J = 0
      · refine ⟨hJ0, ?_⟩
        by_cases hPm : P = -1
        · omega
        · exfalso
          apply h
          exact ⟨1, 1, Or.inr rfl, by omega, by omega, by omega, by omega, by omega⟩
      · exfalso
        -- S = 1, L = J or L = J + 1 depending on the parity
        have e1 := negOnePow (J.toNat + 1)
        have e2 := negOnePow (J.toNat + 1 + 1)
        by_cases hc : P = (-1) ^ (J.toNat + 1)
        · exact h ⟨J.toNat, 1, Or.inr rfl, by omega, by omega, by omega, hc, by omega⟩
        · exact h ⟨J.toNat + 1, 1, Or.inr rfl, by omega, by omega, by omega, by omega, by omega⟩

example : jpcIsExotic 2 (-1) 1 = true ∧ jpcIsExotic 4 1 1 = false := by decide

/-- C02: undefined parities, negative spins or half-integer spins are never reported exotic. -/
theorem jpcIsExotic_undefined (J2 P C : Int) (h : P = 0 ∨ C = 0 ∨ J2 < 0 ∨ J2 % 2 = 1) :
    jpcIsExotic J2 P C = false := by
  unfold jpcIsExotic
  have : (P == 0 || C == 0 || decide (J2 < 0) || isOdd J2) = true := by
    rcases h with h | h | h | h <;> simp [h, isOdd]
  simp [this]

example : jpcIsExotic 3 1 1 = false ∧ jpcIsExotic 0 0 1 = false := by decide

/-- C02: the same for `I^G J^P` (`I2 = 2I`, `J2 = 2J`). -/
theorem igjpIsExotic_iff (I : Nat) (G J P : Int) (hJ : 0 ≤ J) (hP : P = 1 ∨ P = -1)
    (hG : G = 1 ∨ G = -1) :
    igjpIsExotic (2 * I) G (2 * J) P = true ↔ ¬ QuarkModelIGJP I G J P := by
  have key : igjpIsExotic (2 * I) G (2 * J) P = jpcIsExotic (2 * J) P (powMinusOne I * G) := by
    have htd : (2 * J).tdiv 2 = J := by rw [Int.mul_tdiv_cancel_left _ (by decide)]
    have htI : (2 * (I : Int)).tdiv 2 = I := by rw [Int.mul_tdiv_cancel_left _ (by decide)]
    have hpI := powMinusOne_eq I
    have hpI1 := powMinusOne_eq ((I : Int) + 1)
    unfold igjpIsExotic jpcIsExotic
    rw [htd, htI]
    have h1 : (P == 0) = false := by simp; omega
    have h2 : (G == 0) = false := by simp; omega
    have h3 : isOdd (2 * J) = false := by rw [isOdd_false_iff]; omega
    have h4 : decide (2 * J < 0) = false := by simp; omega
    have h5 : isOdd (2 * (I : Int)) = false := by rw [isOdd_false_iff]; omega
    have h6 : decide (2 * (I : Int) < 0) = false := by simp; omega
    have h7 : (powMinusOne I * G == 0) = false := by
      rcases hpI with ⟨_, h⟩ | ⟨_, h⟩ <;> rw [h] <;> simp <;> omega
    simp only [h1, h2, h3, h4, h5, h6, h7, Bool.or_false, Bool.false_eq_true, if_false]
    rcases hpI with ⟨a, h⟩ | ⟨a, h⟩ <;> rcases hpI1 with ⟨b, h'⟩ | ⟨b, h'⟩ <;> try omega
    all_goals
      rw [h, h']
      rcases hP with rfl | rfl <;> rcases hG with rfl | rfl <;> simp
  rw [key, jpcIsExotic_iff J P _ hJ hP (by
    rcases powMinusOne_eq I with ⟨_, h⟩ | ⟨_, h⟩ <;> rw [h] <;> omega)]
  apply not_congr
  have hpI := powMinusOne_eq I
  have eI := negOnePow I
  have hI : powMinusOne I = (-1) ^ I := by omega
  unfold QuarkModelJPC QuarkModelIGJP
  constructor
  · rintro ⟨L, S, a, b, c, d, e, f⟩
    refine ⟨L, S, a, b, c, d, e, ?_⟩
    rw [Nat.add_assoc, Int.pow_add, ← f, hI]
    rcases eI with ⟨h, _⟩ | ⟨h, _⟩ <;> rw [h] <;> omega
  · rintro ⟨L, S, a, b, c, d, e, f⟩
    refine ⟨L, S, a, b, c, d, e, ?_⟩
    rw [f, Nat.add_assoc, Int.pow_add, hI]
    rcases eI with ⟨h, _⟩ | ⟨h, _⟩ <;> rw [h] <;> omega

example : igjpIsExotic 2 (-1) 2 (-1) = true ∧ igjpIsExotic 2 (-1) 2 1 = false := by decide

/-- C02: undefined parities, negative or half-integer isospin or spin are never reported exotic. -/
theorem igjpIsExotic_undefined (I2 G J2 P : Int)
    (h : P = 0 ∨ G = 0 ∨ I2 < 0 ∨ I2 % 2 = 1 ∨ J2 < 0 ∨ J2 % 2 = 1) :
    igjpIsExotic I2 G J2 P = false := by
  unfold igjpIsExotic
  have : (P == 0 || G == 0 || decide (I2 < 0) || isOdd I2 || decide (J2 < 0) || isOdd J2) = true := by
    rcases h with h | h | h | h | h | h <;> simp [h, isOdd]
  simp [this]

example : igjpIsExotic 1 1 2 1 = false := by decide

end Rpwa.Spin
