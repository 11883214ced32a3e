import Verif.Props.Arrays
/-! # C98: examples -/
namespace Rpwa.Arrays

/-- the numbers 10·i + j + k in an array of this shape. -/
def exArr (k : ℕ) (s : List ℕ) : Arr ℕ := ⟨s, fun x => 10 * x.getD 0 0 + x.getD 1 0 + k⟩

/-- two bins with 2 × 1 and 1 × 3 elements. -/
theorem ex_combine : ∃ a, combine (setPart (Ops.plain 0)) (Arr.new (Ops.plain 0) [0, 0, 0]) 0 [exArr 100 [2, 1], exArr 200 [1, 3]] = .ok a ∧
    a.shape = [2, 2, 3] ∧ a.elem [0, 1, 0] = 110 ∧ a.elem [0, 1, 1] = 0 ∧ a.elem [1, 0, 2] = 202 ∧ a.elem [1, 1, 0] = 0 := by
  obtain ⟨a, h1, h2⟩ := combine_plain 0 2 [exArr 100 [2, 1], exArr 200 [1, 3]] (by simp [exArr])
  have hs : a.shape = [2, 2, 3] := h2.shape
  refine ⟨a, h1, hs, ?_, ?_, ?_, ?_⟩
  · exact h2.elem 0 [1, 0] _ rfl (by rw [hs]; rfl)
  · exact h2.elem 0 [1, 1] _ rfl (by rw [hs]; rfl)
  · exact h2.elem 1 [0, 2] _ rfl (by rw [hs]; rfl)
  · exact h2.elem 1 [1, 0] _ rfl (by rw [hs]; rfl)

/-- a matrix with `n` rows and columns. -/
def exMat (n : ℕ) : Mat ℕ := ⟨n, n, fun i j => i + j⟩

/-- matrices of different sizes in two bins with different numbers of mass bins. -/
theorem ex_mat : ∃ a, combine (setPartMat 0) (Arr.new (Ops.mat 0) [0, 0]) 0 [⟨[2], fun _ => exMat 2⟩, ⟨[3], fun _ => exMat 3⟩] = .ok a ∧
    a.shape = [2, 3] ∧ a.elem [0, 1] = exMat 2 ∧ (a.elem [0, 2]).rows = 0 ∧ a.elem [1, 2] = exMat 3 := by
  obtain ⟨a, h1, h2⟩ := combine_mat 0 1 [⟨[2], fun _ => exMat 2⟩, ⟨[3], fun _ => exMat 3⟩] (by simp)
  have hs : a.shape = [2, 3] := h2.shape
  refine ⟨a, h1, hs, ?_, ?_, ?_⟩
  · exact h2.elem 0 [1] _ rfl (by rw [hs]; rfl)
  · rw [h2.elem 0 [2] _ rfl (by rw [hs]; rfl)]
    rfl
  · exact h2.elem 1 [2] _ rfl (by rw [hs]; rfl)

/-- the ordinary function loses the matrix. -/
theorem ex_loses : ((adjustSize (Ops.mat 0) ⟨[1, 1], fun _ => exMat 2⟩ [1] 2).elem [0, 0]).rows = 0 :=
  plain_loses 0 _ 2 1 [1] [1] rfl (by omega) [0, 0] (by simp [exMat])

/-- a smaller part over a larger one: one element of the old part remains. -/
theorem ex_stale : ∃ a1 a2, setPart (Ops.plain 0) (Arr.new (Ops.plain 0) [0, 0]) 0 (exArr 100 [2]) = .ok a1 ∧ setPart (Ops.plain 0) a1 0 (exArr 200 [1]) = .ok a2 ∧
    a2.elem [0, 1] = 110 := by
  obtain ⟨a1, a2, h1, h2, h3⟩ := stale 0 (Arr.new (Ops.plain 0) [0, 0]) (exArr 100 [2]) (exArr 200 [1]) 0 rfl rfl
  exact ⟨a1, a2, h1, h2, h3 [1] rfl rfl⟩

theorem ex_vec : (setVec 0 [1, 2] 4 7) = [1, 2, 0, 0, 7] := rfl

theorem ex_refused : copyMultiArray (Ops.plain 0) (exArr 0 [2, 2]) [] (exArr 0 [2]) [0] = .terminate := copy_refused _ _ _ _ (by simp [exArr]) (by simp [exArr])

theorem ex_size : checkSize [2, 3] [2, 3] = .ok () ∧ checkSize [2, 3] [2, 4] = .terminate :=
  ⟨(checkSize_iff (s := [2, 3]) (e := [2, 3]) rfl).1.2 rfl, (checkSize_iff (s := [2, 3]) (e := [2, 4]) rfl).2.2 (by decide)⟩

theorem ex_one : ∃ a', setOne (Ops.plain 0) (exArr 5 [1]) 2 9 = .ok a' ∧ a'.shape = [3] ∧ a'.elem [2] = 9 ∧ a'.elem [0] = 5 ∧ a'.elem [1] = 0 := by
  obtain ⟨a', h1, h2, h3, h4⟩ := setOne_spec 0 (exArr 5 [1]) 2 1 9 rfl
  exact ⟨a', h1, h2, h3, h4 0 (by omega) (by omega), h4 1 (by omega) (by omega)⟩

end Rpwa.Arrays
