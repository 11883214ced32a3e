import Verif.Model.ComplexMatrix
import Verif.Lemmas.Outcome
import Mathlib.LinearAlgebra.Matrix.Block
import Mathlib.LinearAlgebra.Matrix.ConjTranspose
import Mathlib.Tactic.Ring
import Mathlib.Tactic.Linarith
import Mathlib.Tactic.NormNum
/-!
# Complex matrices (C35) -/
namespace Rpwa.CMat

open Finset

/-! ### specification -/

/-- entry in row `i` and column `j`. -/
def CMatrix.entry (A : CMatrix) (i j : ℕ) : ℂ := A.data (i * A.size2 + j)

/-- same shape and same entries. -/
def Same (A B : CMatrix) : Prop := A.size1 = B.size1 ∧ A.size2 = B.size2 ∧ ∀ i < A.size1, ∀ j < A.size2, A.entry i j = B.entry i j

/-- the matrix of linear algebra. -/
def CMatrix.toMatrix (A : CMatrix) (n m : ℕ) : Matrix (Fin n) (Fin m) ℂ := fun i j => A.entry i j

theorem index_lt {n m i j : ℕ} (hi : i < n) (hj : j < m) : i * m + j < n * m := by
  calc i * m + j < i * m + m := by omega
    _ = (i + 1) * m := by ring
    _ ≤ n * m := Nat.mul_le_mul_right _ hi

theorem ofFn_entry {n m : ℕ} (f : ℕ → ℕ → ℂ) {i j : ℕ} (hj : j < m) : (CMatrix.ofFn n m f).entry i j = f i j := by
  have hm : 0 < m := by omega
  show f ((i * m + j) / m) ((i * m + j) % m) = f i j
  rw [Nat.add_comm, Nat.add_mul_div_right _ _ hm, Nat.div_eq_of_lt hj, Nat.add_mul_mod_self_right, Nat.mod_eq_of_lt hj, Nat.zero_add]

/-! ### comparison -/

theorem get_ok {A : CMatrix} {i j : ℕ} (h : i * A.size2 + j < A.size1 * A.size2) : A.get i j = .ok (A.data (i * A.size2 + j)) := if_pos h

theorem eqLoop_inside (A B : CMatrix) (same : ℂ → ℂ → Prop) [DecidableRel same] (h1 : A.size1 = B.size1) (h2 : A.size2 = B.size2) (l : List (ℕ × ℕ))
    (hl : ∀ p ∈ l, p.1 * A.size2 + p.2 < A.size1 * A.size2) :
    ∃ b, eqLoop A B same l = .ok b ∧ (b = true ↔ ∀ p ∈ l, same (A.data (p.1 * A.size2 + p.2)) (B.data (p.1 * A.size2 + p.2))) := by
  induction l with
  | nil => exact ⟨true, rfl, by simp⟩
  | cons p l ih =>
    obtain ⟨b, hb, hbi⟩ := ih fun q hq => hl q (List.mem_cons_of_mem _ hq)
    have hp := hl p List.mem_cons_self
    have hp' : p.1 * B.size2 + p.2 < B.size1 * B.size2 := by rw [← h1, ← h2]; exact hp
    obtain ⟨i, j⟩ := p
    simp only [eqLoop, get_ok hp, get_ok hp', Outcome.ok_bind]
    rw [← h2]
    by_cases hs : same (A.data (i * A.size2 + j)) (B.data (i * A.size2 + j))
    · rw [if_pos hs]
      exact ⟨b, hb, by rw [hbi]; simp [hs]⟩
    · rw [if_neg hs]
      exact ⟨false, rfl, by simp [hs]⟩

theorem mem_loopPairs (A : CMatrix) (p : ℕ × ℕ) : p ∈ loopPairs A ↔ p.1 < A.size2 ∧ p.2 < A.size1 := by
  obtain ⟨i, j⟩ := p
  simp [loopPairs]

/-- when the loop stays inside of the matrix: never for more columns than rows. -/
theorem inside_iff (A : CMatrix) : (∀ p ∈ loopPairs A, p.1 * A.size2 + p.2 < A.size1 * A.size2) ↔ A.size1 = 0 ∨ A.size2 ≤ A.size1 := by
  constructor
  · intro h
    by_contra hc
    push Not at hc
    obtain ⟨h0, hlt⟩ := hc
    have := h (A.size1, 0) ((mem_loopPairs _ _).2 ⟨hlt, by omega⟩)
    simp at this
  · rintro (h | h) ⟨i, j⟩ hp
    · have := ((mem_loopPairs _ _).1 hp).2
      simp only at this
      omega
    · obtain ⟨hi, hj⟩ := (mem_loopPairs _ _).1 hp
      simp only at hi hj ⊢
      obtain ⟨d, hd⟩ := Nat.exists_eq_add_of_le h
      rw [hd] at hj ⊢
      obtain ⟨c, hc⟩ := Nat.exists_eq_add_of_lt hi
      rw [hc] at hj ⊢
      nlinarith [Nat.zero_le i, Nat.zero_le c, Nat.zero_le d, Nat.mul_le_mul (Nat.zero_le i) (Nat.zero_le d), Nat.mul_le_mul (Nat.zero_le c) (Nat.zero_le d)]

/-- **C35** for square matrices `==` is equality of shape and entries. -/
theorem beq_iff_partial (A B : CMatrix) (h : A.size1 = A.size2) : ∃ b, A.beq B = .ok b ∧ (b = true ↔ Same A B) := by
  unfold CMatrix.beq
  by_cases hne : A.size2 ≠ B.size2 ∨ A.size1 ≠ B.size1
  · rw [if_pos hne]
    refine ⟨false, rfl, ?_⟩
    simp only [Bool.false_eq_true, false_iff]
    rintro ⟨h1, h2, -⟩
    rcases hne with h | h
    · exact h h2
    · exact h h1
  · rw [if_neg hne]
    push Not at hne
    obtain ⟨b, hb, hbi⟩ := eqLoop_inside A B (· = ·) hne.2 hne.1 (loopPairs A) ((inside_iff A).2 (.inr h.ge))
    refine ⟨b, ?_, ?_⟩
    · exact hb
    · rw [hbi]
      unfold Same CMatrix.entry
      rw [← hne.1]
      constructor
      · intro hh
        exact ⟨hne.2, rfl, fun i hi j hj => hh (i, j) ((mem_loopPairs _ _).2 ⟨h ▸ hi, h ▸ hj⟩)⟩
      · rintro ⟨-, -, hh⟩ ⟨i, j⟩ hp
        obtain ⟨hi, hj⟩ := (mem_loopPairs _ _).1 hp
        exact hh i (h ▸ hi) j (h ▸ hj)

/-- **C35** for square matrices `equalToPrecision` means that real and imaginary parts of all entries differ by no more than the
precision. -/
theorem equalToPrecision_iff_partial (A B : CMatrix) (prec : ℝ) (h : A.size1 = A.size2) : ∃ b, A.equalToPrecision B prec = .ok b ∧
    (b = true ↔ A.size1 = B.size1 ∧ A.size2 = B.size2 ∧
      ∀ i < A.size1, ∀ j < A.size2, |(A.entry i j).re - (B.entry i j).re| ≤ prec ∧ |(A.entry i j).im - (B.entry i j).im| ≤ prec) := by
  unfold CMatrix.equalToPrecision
  by_cases hne : A.size2 ≠ B.size2 ∨ A.size1 ≠ B.size1
  · rw [if_pos hne]
    refine ⟨false, rfl, ?_⟩
    simp only [Bool.false_eq_true, false_iff]
    rintro ⟨h1, h2, -⟩
    rcases hne with h | h
    · exact h h2
    · exact h h1
  · rw [if_neg hne]
    push Not at hne
    obtain ⟨b, hb, hbi⟩ := eqLoop_inside A B (fun x y => ¬ (|x.re - y.re| > prec) ∧ ¬ (|x.im - y.im| > prec)) hne.2 hne.1 (loopPairs A)
      ((inside_iff A).2 (.inr h.ge))
    refine ⟨b, hb, ?_⟩
    rw [hbi]
    unfold CMatrix.entry
    rw [← hne.1]
    constructor
    · intro hh
      refine ⟨hne.2, rfl, fun i hi j hj => ?_⟩
      have := hh (i, j) ((mem_loopPairs _ _).2 ⟨h ▸ hi, h ▸ hj⟩)
      exact ⟨not_lt.1 this.1, not_lt.1 this.2⟩
    · rintro ⟨-, -, hh⟩ ⟨i, j⟩ hp
      obtain ⟨hi, hj⟩ := (mem_loopPairs _ _).1 hp
      have := hh i (h ▸ hi) j (h ▸ hj)
      exact ⟨not_lt.2 this.1, not_lt.2 this.2⟩

/-- a matrix with more columns than rows: comparing it with itself reads outside of the matrix. -/
theorem beq_wide_ub (A : CMatrix) (h0 : 0 < A.size1) (h : A.size1 < A.size2) : A.beq A = .ub := by
  unfold CMatrix.beq
  rw [if_neg (by simp)]
  have hex : ∃ p ∈ loopPairs A, ¬ p.1 * A.size2 + p.2 < A.size1 * A.size2 := by
    by_contra hc
    push Not at hc
    have := (inside_iff A).1 hc
    omega
  generalize loopPairs A = l at hex
  classical
  induction l with
  | nil => simp at hex
  | cons p l ih =>
    obtain ⟨i, j⟩ := p
    unfold eqLoop
    by_cases hin : i * A.size2 + j < A.size1 * A.size2
    · simp only [get_ok hin, Outcome.ok_bind, if_true]
      refine ih ?_
      obtain ⟨p, hp, hn⟩ := hex
      rcases List.mem_cons.1 hp with rfl | hp
      · exact absurd hin hn
      · exact ⟨p, hp, hn⟩
    · have : A.get i j = .ub := if_neg hin
      rw [this]; rfl

/-- a matrix with more rows than (at least two) columns: the last entry is never compared, different matrices are equal. -/
theorem beq_tall_ignores_last (A : CMatrix) (h2 : 2 ≤ A.size2) (h : A.size2 < A.size1) :
    ∃ B, ¬ Same A B ∧ A.beq B = .ok true := by
  set last := (A.size1 - 1) * A.size2 + (A.size2 - 1) with hlast
  refine ⟨{ A with data := (Function.update A.data last (A.data last + 1)) }, ?_, ?_⟩
  · rintro ⟨-, -, hh⟩
    have := hh (A.size1 - 1) (by omega) (A.size2 - 1) (by omega)
    unfold CMatrix.entry at this
    simp only [← hlast, Function.update_self] at this
    simp at this
  · unfold CMatrix.beq
    rw [if_neg (by simp)]
    obtain ⟨b, hb, hbi⟩ := eqLoop_inside A { A with data := (Function.update A.data last (A.data last + 1)) } (· = ·) rfl rfl (loopPairs A)
      ((inside_iff A).2 (.inr h.le))
    have hbt : b = true := by
      rw [hbi]
      rintro ⟨i, j⟩ hp
      obtain ⟨hi, hj⟩ := (mem_loopPairs _ _).1 hp
      simp only at hi hj ⊢
      rw [Function.update_of_ne]
      rw [hlast]
      obtain ⟨d, hd⟩ := Nat.exists_eq_add_of_lt h
      obtain ⟨c, hc⟩ := Nat.exists_eq_add_of_le h2
      have e1 : A.size1 - 1 = c + 2 + d := by omega
      have e2 : A.size2 - 1 = c + 1 := by omega
      rw [e1, e2, hc]
      have hi' : i ≤ c + 1 := by omega
      have hj' : j ≤ c + 2 + d := by omega
      have : i * (2 + c) ≤ (c + 1) * (2 + c) := Nat.mul_le_mul_right _ hi'
      nlinarith [Nat.zero_le (c * d), Nat.zero_le (c * c)]
    rw [hbt] at hb
    exact hb

/-! ### algebra -/

/-- **C35** `t()` is the transpose. -/
theorem t_spec (A : CMatrix) : A.t.size1 = A.size2 ∧ A.t.size2 = A.size1 ∧ ∀ i < A.size2, ∀ j < A.size1, A.t.entry i j = A.entry j i :=
  ⟨rfl, rfl, fun _ _ _ hj => ofFn_entry _ hj⟩

/-- **C35** the product. -/
theorem mul_spec (A B : CMatrix) (n k m : ℕ) (hA : A.size1 = n ∧ A.size2 = k) (hB : B.size1 = k ∧ B.size2 = m) :
    (A.mul B).toMatrix n m = A.toMatrix n k * B.toMatrix k m := by
  obtain ⟨rfl, rfl⟩ := hA
  obtain ⟨hB1, rfl⟩ := hB
  ext i j
  rw [Matrix.mul_apply]
  unfold CMatrix.toMatrix
  rw [CMatrix.mul, ofFn_entry _ j.2, Finset.sum_range]
  rfl

/-- **C35** sum and difference. -/
theorem add_sub_spec (A B : CMatrix) (n m : ℕ) (hA : A.size1 = n ∧ A.size2 = m) (hB : B.size1 = n ∧ B.size2 = m) :
    (A.add B).toMatrix n m = A.toMatrix n m + B.toMatrix n m ∧ (A.sub B).toMatrix n m = A.toMatrix n m - B.toMatrix n m := by
  obtain ⟨rfl, rfl⟩ := hA
  obtain ⟨-, hB2⟩ := hB
  constructor <;> ext i j
  · rw [Matrix.add_apply]
    unfold CMatrix.toMatrix
    rw [CMatrix.add, ofFn_entry _ j.2]
    rfl
  · rw [Matrix.sub_apply]
    unfold CMatrix.toMatrix
    rw [CMatrix.sub, ofFn_entry _ j.2]
    rfl

/-- what `dagger()` returns: the entries are conjugated, the matrix is not transposed. -/
theorem dagger_spec (A : CMatrix) : A.dagger.size1 = A.size1 ∧ A.dagger.size2 = A.size2 ∧
    ∀ i < A.size1, ∀ j < A.size2, A.dagger.entry i j = (starRingEnd ℂ) (A.entry i j) :=
  ⟨rfl, rfl, fun _ _ _ hj => ofFn_entry _ hj⟩

/-- **C35** `dagger()` is the adjoint exactly for symmetric matrices. -/
theorem dagger_adjoint_partial (A : CMatrix) (n : ℕ) (hA : A.size1 = n ∧ A.size2 = n) :
    A.dagger.toMatrix n n = (A.toMatrix n n).conjTranspose ↔ (A.toMatrix n n).transpose = A.toMatrix n n := by
  obtain ⟨h1, h2⟩ := hA
  have hd : ∀ i j : Fin n, A.dagger.toMatrix n n i j = (starRingEnd ℂ) (A.toMatrix n n i j) := fun i j =>
    (dagger_spec A).2.2 i (h1 ▸ i.2) j (h2 ▸ j.2)
  constructor
  · intro h
    ext i j
    have := congrFun (congrFun h j) i
    rw [hd, Matrix.conjTranspose_apply] at this
    rw [Matrix.transpose_apply]
    exact (starRingEnd ℂ).injective this
  · intro h
    ext i j
    rw [hd, Matrix.conjTranspose_apply]
    have := congrFun (congrFun h j) i
    rw [Matrix.transpose_apply] at this
    rw [this]
    rfl

/-- `dagger` of a non-square matrix does not even have the shape of the adjoint. -/
theorem dagger_shape (A : CMatrix) (h : A.size1 ≠ A.size2) : ¬ (A.dagger.size1 = A.size2 ∧ A.dagger.size2 = A.size1) :=
  fun hh => h hh.1

/-- counterexample: the upper triangular matrix `(0 1; 0 0)`. -/
theorem dagger_not_adjoint : ∃ A : CMatrix, A.size1 = 2 ∧ A.size2 = 2 ∧ A.dagger.toMatrix 2 2 ≠ (A.toMatrix 2 2).conjTranspose := by
  refine ⟨⟨2, 2, fun k => if k = 1 then 1 else 0⟩, rfl, rfl, ?_⟩
  rw [Ne, dagger_adjoint_partial _ 2 ⟨rfl, rfl⟩]
  intro h
  have := congrFun (congrFun h 0) 1
  simp [Matrix.transpose_apply, CMatrix.toMatrix, CMatrix.entry] at this

/-! ### determinant -/

/-- the swaps of `permutation_matrix`: rows `i` and `perm i` are exchanged, in ascending order of `i`. -/
def swaps (n : ℕ) (perm : ℕ → ℕ) (hp : ∀ i < n, perm i < n) : Equiv.Perm (Fin n) :=
  ((List.finRange n).map fun i => Equiv.swap i ⟨perm i, hp i i.2⟩).prod

/-- what is assumed about `bnu::lu_factorize`: it reports exactly the singular matrices, otherwise the matrix with exchanged rows is
the product of the unit lower and the upper triangular part of the returned factors. -/
def LuSpec (luFactorize : CMatrix → LU) : Prop :=
  ∀ (A : CMatrix) (n : ℕ), A.size1 = n → A.size2 = n →
    let lu := luFactorize A
    ((lu.singular = true) ↔ (A.toMatrix n n).det = 0) ∧
    (lu.singular = false → ∃ hp : ∀ i < n, lu.perm i < n,
      (A.toMatrix n n).submatrix (swaps n lu.perm hp) id =
        Matrix.of (fun i j : Fin n => if i = j then 1 else if j < i then lu.factors.data (i * n + j) else 0) *
        Matrix.of (fun i j : Fin n => if i ≤ j then lu.factors.data (i * n + j) else 0))

theorem foldl_mul_range (f : ℕ → ℂ) (n : ℕ) : (List.range n).foldl (fun d i => d * f i) 1 = ∏ i ∈ range n, f i := by
  induction n with
  | zero => rfl
  | succ n ih => rw [List.range_succ, List.foldl_append, ih, Finset.prod_range_succ]; rfl

theorem sign_swaps (n : ℕ) (perm : ℕ → ℕ) (hp : ∀ i < n, perm i < n) :
    ((Equiv.Perm.sign (swaps n perm hp) : ℤˣ) : ℤ) = (List.range n).foldl (fun s i => if i ≠ perm i then s * (-1) else s) 1 := by
  unfold swaps
  rw [map_list_prod]
  have h1 : ∀ (l : List (Fin n)) (z : ℤ), z * ((((l.map fun i => Equiv.swap i ⟨perm i, hp i i.2⟩).map Equiv.Perm.sign).prod : ℤˣ) : ℤ) =
      (l.map Fin.val).foldl (fun s i => if i ≠ perm i then s * (-1) else s) z := by
    intro l
    induction l with
    | nil => intro z; simp
    | cons i l ih =>
      intro z
      simp only [List.map_cons, List.prod_cons, List.foldl_cons, Units.val_mul]
      rw [← ih, ← mul_assoc]
      congr 1
      by_cases h : (i : ℕ) = perm i
      · rw [if_neg (by simpa using h)]
        have : (⟨perm i, hp i i.2⟩ : Fin n) = i := Fin.ext h.symm
        rw [this, Equiv.swap_self]
        simp
      · rw [if_pos h, Equiv.Perm.sign_swap (fun he => h (congrArg Fin.val he))]
        simp
  have := h1 (List.finRange n) 1
  rw [one_mul] at this
  rw [this]
  congr 1
  simp

/-- **C35** `determinant()` is the determinant (and 0 for non-square matrices). -/
theorem determinant_spec (luFactorize : CMatrix → LU) (hlu : LuSpec luFactorize) (A : CMatrix) (n : ℕ) (hA : A.size1 = n ∧ A.size2 = n) :
    A.determinant luFactorize = (A.toMatrix n n).det := by
  obtain ⟨h1, h2⟩ := hA
  obtain ⟨hs, hf⟩ := hlu A n h1 h2
  unfold CMatrix.determinant detOfLU
  rw [if_neg (by rw [h1, h2]; simp)]
  by_cases hsing : (luFactorize A).singular = true
  · rw [if_pos hsing, hs.1 hsing]
  · rw [if_neg hsing]
    obtain ⟨hp, hm⟩ := hf (by simpa using hsing)
    have hdet := congrArg Matrix.det hm
    rw [Matrix.det_permute, Matrix.det_mul] at hdet
    have hLdet : (Matrix.of (fun i j : Fin n => if i = j then (1 : ℂ) else if j < i then (luFactorize A).factors.data (i * n + j) else 0)).det = 1 := by
      refine (Matrix.det_of_lowerTriangular _ ?_).trans ?_
      · intro i j hij
        have hij' : i < j := hij
        simp only [Matrix.of_apply]
        rw [if_neg hij'.ne, if_neg (not_lt.2 hij'.le)]
      · apply Finset.prod_eq_one
        intro i _
        simp
    have hUdet : (Matrix.of (fun i j : Fin n => if i ≤ j then (luFactorize A).factors.data (i * n + j) else 0)).det =
        ∏ i ∈ range n, (luFactorize A).factors.data (i * n + i) := by
      refine (Matrix.det_of_upperTriangular ?_).trans ?_
      · intro i j hij
        have hij' : j < i := hij
        simp only [Matrix.of_apply]
        rw [if_neg (not_le.2 hij')]
      · rw [Finset.prod_range]
        apply Finset.prod_congr rfl
        intro i _
        simp
    rw [hLdet, hUdet, one_mul] at hdet
    rw [h1]
    show (List.range n).foldl (fun d i => d * (luFactorize A).factors.data (i * n + i)) 1 * _ = _
    rw [foldl_mul_range (fun i => (luFactorize A).factors.data (i * n + i)), ← sign_swaps n _ hp, ← hdet]
    have hsq : (((Equiv.Perm.sign (swaps n (luFactorize A).perm hp) : ℤˣ) : ℤ) : ℂ) * (((Equiv.Perm.sign (swaps n (luFactorize A).perm hp) : ℤˣ) : ℤ) : ℂ) = 1 := by
      rcases Int.units_eq_one_or (Equiv.Perm.sign (swaps n (luFactorize A).perm hp)) with h | h <;> rw [h] <;> simp
    rw [mul_comm, ← mul_assoc]
    rw [hsq, one_mul]

/-! ### storing -/

/-- **C35** a matrix without rows or columns of size zero survives writing and reading. -/
theorem store_read (A : CMatrix) (h1 : 0 < A.size1) (h2 : 0 < A.size2) : Same (CMatrix.read A.store) A := by
  unfold CMatrix.read
  have hs : A.store.size1 = A.size1 ∧ A.store.size2 = A.size2 := ⟨rfl, rfl⟩
  rw [if_pos ⟨h1, h2⟩]
  refine ⟨rfl, rfl, fun i hi j hj => ?_⟩
  replace hi : i < A.size1 := hi
  replace hj : j < A.size2 := hj
  refine (ofFn_entry (m := A.store.size2) _ hj).trans ?_
  have hget : ∀ (n : ℕ) (i j : ℕ), i < n → j < A.size2 →
      ((List.range n).flatMap fun i => (List.range A.size2).map fun j => A.data (i * A.size2 + j))[i * A.size2 + j]? = some (A.data (i * A.size2 + j)) := by
    intro n
    induction n with
    | zero => intro i j hi; omega
    | succ n ih =>
      intro i j hi hj
      have hlen : ∀ n, ((List.range n).flatMap fun i => (List.range A.size2).map fun j => A.data (i * A.size2 + j)).length = n * A.size2 := by
        intro n
        simp [List.length_flatMap]
      rw [List.range_succ, List.flatMap_append]
      by_cases hin : i < n
      · rw [List.getElem?_append_left (by rw [hlen]; exact index_lt hin hj)]
        exact ih i j hin hj
      · have : i = n := by omega
        subst this
        rw [List.getElem?_append_right (by rw [hlen]; omega), hlen]
        simp [hj]
  show A.store.data.getD (i * A.size2 + j) 0 = _
  unfold CMatrix.store
  rw [List.getD_eq_getElem?_getD, hget A.size1 i j hi hj]
  rfl

/-- an empty matrix with rows or columns loses its shape. -/
theorem store_read_empty (A : CMatrix) (h : A.size1 = 0 ∨ A.size2 = 0) : (CMatrix.read A.store).size1 = 0 ∧ (CMatrix.read A.store).size2 = 0 := by
  unfold CMatrix.read
  rw [if_neg (by
    rintro ⟨h1, h2⟩
    have e1 : 0 < A.size1 := h1
    have e2 : 0 < A.size2 := h2
    rcases h with h | h <;> omega)]
  exact ⟨rfl, rfl⟩

/-! ### lifetime -/

/-- no object shares its array with another one. -/
structure MemOk (m : Mem) : Prop where
  inHeap : ∀ i ∈ m.live, ∀ p, m.data i = some p → p ∈ m.heap
  fresh : ∀ p ∈ m.heap, p < m.next
  unshared : ∀ i ∈ m.live, ∀ j ∈ m.live, ∀ p, m.data i = some p → m.data j = some p → i = j

/-- copies are taken only of objects without stored array (that were not written to a file). -/
def Careful (m : Mem) : Op → Prop
  | .copy i _ => m.data i = none
  | .assign i _ => m.data i = none
  | _ => True

theorem step_ok {m : Mem} (h : MemOk m) (o : Op) (hc : Careful m o) : ∃ m', m.step o = .ok m' ∧ MemOk m' := by
  cases o with
  | create i =>
    refine ⟨_, rfl, ?_⟩
    split_ifs with hi
    · exact h
    · constructor
      · intro j hj p hp
        simp only at hj hp
        by_cases hji : j = i
        · subst hji; simp at hp
        · rw [Function.update_of_ne hji] at hp
          exact h.inHeap j ((Finset.mem_insert.1 hj).resolve_left hji) p hp
      · exact h.fresh
      · intro j hj k hk p hp hq
        simp only at hj hk hp hq
        have hji : j ≠ i := by rintro rfl; simp at hp
        have hki : k ≠ i := by rintro rfl; simp at hq
        rw [Function.update_of_ne hji] at hp
        rw [Function.update_of_ne hki] at hq
        exact h.unshared j ((Finset.mem_insert.1 hj).resolve_left hji) k ((Finset.mem_insert.1 hk).resolve_left hki) p hp hq
  | copy a i =>
    have hc' : m.data a = none := hc
    refine ⟨_, rfl, ?_⟩
    split_ifs with hi
    · rw [hc']
      constructor
      · intro j hj p hp
        simp only at hj hp
        by_cases hji : j = i
        · subst hji; simp at hp
        · rw [Function.update_of_ne hji] at hp
          exact h.inHeap j ((Finset.mem_insert.1 hj).resolve_left hji) p hp
      · exact h.fresh
      · intro j hj k hk p hp hq
        simp only at hj hk hp hq
        have hji : j ≠ i := by rintro rfl; simp at hp
        have hki : k ≠ i := by rintro rfl; simp at hq
        rw [Function.update_of_ne hji] at hp
        rw [Function.update_of_ne hki] at hq
        exact h.unshared j ((Finset.mem_insert.1 hj).resolve_left hji) k ((Finset.mem_insert.1 hk).resolve_left hki) p hp hq
    · exact h
  | assign a i =>
    have hc' : m.data a = none := hc
    refine ⟨_, rfl, ?_⟩
    split_ifs with hi
    · rw [hc']
      constructor
      · intro j hj p hp
        simp only at hj hp
        by_cases hji : j = i
        · subst hji; simp at hp
        · rw [Function.update_of_ne hji] at hp
          exact h.inHeap j hj p hp
      · exact h.fresh
      · intro j hj k hk p hp hq
        simp only at hj hk hp hq
        have hji : j ≠ i := by rintro rfl; simp at hp
        have hki : k ≠ i := by rintro rfl; simp at hq
        rw [Function.update_of_ne hji] at hp
        rw [Function.update_of_ne hki] at hq
        exact h.unshared j hj k hk p hp hq
    · exact h
  | store i =>
    unfold Mem.step
    by_cases hi : i ∈ m.live
    · simp only [if_pos hi]
      have hfree : ∃ m1 : Mem, m.free (m.data i) = .ok m1 ∧ m1.live = m.live ∧ m1.data = m.data ∧ m1.next = m.next ∧
          (∀ p ∈ m1.heap, p ∈ m.heap) ∧ ∀ p ∈ m.heap, m.data i ≠ some p → p ∈ m1.heap := by
        cases hd : m.data i with
        | none => exact ⟨m, rfl, rfl, rfl, rfl, fun _ h => h, fun _ h _ => h⟩
        | some q =>
          refine ⟨{ m with heap := m.heap.erase q }, if_pos (h.inHeap i hi q hd), rfl, rfl, rfl, fun p hp => Finset.mem_of_mem_erase hp, ?_⟩
          intro p hp hne
          exact Finset.mem_erase.2 ⟨fun he => hne (by rw [he]), hp⟩
      obtain ⟨m1, hm1, e1, e2, e3, e4, e5⟩ := hfree
      refine ⟨_, by rw [hm1]; rfl, ?_⟩
      constructor
      · intro j hj p hp
        simp only [e1, e2, e3] at hj hp ⊢
        by_cases hji : j = i
        · subst hji
          rw [Function.update_self] at hp
          rw [← Option.some.inj hp]; exact Finset.mem_insert_self _ _
        · rw [Function.update_of_ne hji] at hp
          refine Finset.mem_insert_of_mem (e5 p (h.inHeap j hj p hp) ?_)
          intro hip
          exact hji (h.unshared j hj i hi p hp hip)
      · intro p hp
        simp only [e3] at hp ⊢
        rcases Finset.mem_insert.1 hp with hp | hp
        · rw [hp]; exact Nat.lt_succ_self _
        · exact Nat.lt_succ_of_lt (h.fresh p (e4 p hp))
      · intro j hj k hk p hp hq
        simp only [e1, e2, e3] at hj hk hp hq
        by_cases hji : j = i
        · subst hji
          by_cases hkj : k = j
          · exact hkj.symm
          · rw [Function.update_self] at hp
            rw [Function.update_of_ne hkj] at hq
            have := h.fresh p (h.inHeap k hk p hq)
            rw [← Option.some.inj hp] at this
            exact absurd this (lt_irrefl _)
        · rw [Function.update_of_ne hji] at hp
          by_cases hki : k = i
          · subst hki
            rw [Function.update_self] at hq
            have := h.fresh p (h.inHeap j hj p hp)
            rw [← Option.some.inj hq] at this
            exact absurd this (lt_irrefl _)
          · rw [Function.update_of_ne hki] at hq
            exact h.unshared j hj k hk p hp hq
    · exact ⟨m, by simp only [if_neg hi], h⟩
  | destroy i =>
    unfold Mem.step
    by_cases hi : i ∈ m.live
    · simp only [if_pos hi]
      have hfree : ∃ m1 : Mem, m.free (m.data i) = .ok m1 ∧ m1.live = m.live ∧ m1.data = m.data ∧ m1.next = m.next ∧
          (∀ p ∈ m1.heap, p ∈ m.heap) ∧ ∀ p ∈ m.heap, m.data i ≠ some p → p ∈ m1.heap := by
        cases hd : m.data i with
        | none => exact ⟨m, rfl, rfl, rfl, rfl, fun _ h => h, fun _ h _ => h⟩
        | some q =>
          refine ⟨{ m with heap := m.heap.erase q }, if_pos (h.inHeap i hi q hd), rfl, rfl, rfl, fun p hp => Finset.mem_of_mem_erase hp, ?_⟩
          intro p hp hne
          exact Finset.mem_erase.2 ⟨fun he => hne (by rw [he]), hp⟩
      obtain ⟨m1, hm1, e1, e2, e3, e4, e5⟩ := hfree
      refine ⟨_, by rw [hm1]; rfl, ?_⟩
      constructor
      · intro j hj p hp
        simp only [e1, e2] at hj hp ⊢
        have hji := (Finset.mem_erase.1 hj).1
        have hjl := (Finset.mem_erase.1 hj).2
        exact e5 p (h.inHeap j hjl p hp) fun hip => hji (h.unshared j hjl i hi p hp hip)
      · intro p hp
        simp only [e3]
        exact h.fresh p (e4 p hp)
      · intro j hj k hk p hp hq
        simp only [e1, e2] at hj hk hp hq
        exact h.unshared j (Finset.mem_erase.1 hj).2 k (Finset.mem_erase.1 hk).2 p hp hq
    · exact ⟨m, by simp only [if_neg hi], h⟩

/-- a history of operations in which only matrices without stored array are copied. -/
def CarefulHistory : Mem → List Op → Prop
  | _, [] => True
  | m, o :: l => Careful m o ∧ ∀ m', m.step o = .ok m' → CarefulHistory m' l

/-- **C35** no array is deleted twice in any history in which matrices that were written to a file are not copied. -/
theorem no_double_delete_partial (l : List Op) (h : CarefulHistory Mem.empty l) : ∃ m, l.foldlM Mem.step Mem.empty = .ok m := by
  have : ∀ (l : List Op) (m : Mem), MemOk m → CarefulHistory m l → ∃ m', l.foldlM Mem.step m = .ok m' := by
    intro l
    induction l with
    | nil => intro m _ _; exact ⟨m, rfl⟩
    | cons o l ih =>
      intro m hm hl
      obtain ⟨m', h1, h2⟩ := step_ok hm o hl.1
      obtain ⟨m'', h3⟩ := ih m' h2 (hl.2 m' h1)
      refine ⟨m'', ?_⟩
      rw [List.foldlM_cons, h1, Outcome.ok_bind, h3]
  refine this l _ ⟨?_, ?_, ?_⟩ h
  · intro i hi; simp [Mem.empty] at hi
  · intro i hi; simp [Mem.empty] at hi
  · intro i hi; simp [Mem.empty] at hi

/-- copying a matrix that was written to a file, and the end of both copies: the array is deleted twice. -/
theorem double_delete_after_store : [Op.create 0, .store 0, .copy 0 1, .destroy 0, .destroy 1].foldlM Mem.step Mem.empty = .ub := by
  rfl

example : CarefulHistory Mem.empty [.create 0, .copy 0 1, .store 0, .destroy 0, .destroy 1] := by
  refine ⟨trivial, fun m h => ?_⟩
  have h := (Outcome.ok.inj h).symm
  subst h
  refine ⟨rfl, fun m h => ⟨trivial, fun m' h' => ⟨trivial, fun m'' h'' => ⟨trivial, fun m''' h''' => trivial⟩⟩⟩⟩

end Rpwa.CMat
