import Verif.Props.IntegralMatrix
/-!
# C22: text form of an integral matrix

`writeAscii` sends the wave names to the standard output instead of to the requested stream, so the round trip fails for every
other stream (`ascii_roundtrip_fails`); it holds when the stream is the standard output itself. -/
namespace Rpwa.Integral

/-- number words and complex words of a list. -/
theorem readMatrix_ok (n : ℕ) (m : IntMat) (hr : m.rows = n) (hc : m.cols = n) (M : ℕ → ℕ → ℂ) (rest : List Word) :
    readMatrix n n m (((List.range n).flatMap fun i => (List.range n).map fun j => Word.cplx (M i j)) ++ rest) =
      .ok ({ m with mat := fun i j => if i < n ∧ j < n then M i j else m.mat i j }, some rest) := by
  unfold readMatrix
  -- words left after the first `i` rows
  let W : ℕ → List Word := fun i =>
    (((List.range n).drop i).flatMap fun i => (List.range n).map fun j => Word.cplx (M i j)) ++ rest
  have hW : ∀ i < n, W i = ((List.range n).map fun j => Word.cplx (M i j)) ++ W (i + 1) := by
    intro i hi
    simp only [W]
    rw [List.drop_eq_getElem_cons (by simpa using hi)]
    simp
  have := forRange_traj n (fun i =>
      (({ m with mat := fun a b => if a < i ∧ b < n then M a b else m.mat a b } : IntMat), some (W i)))
    (fun i s => forRange n s fun j s =>
      match s with
      | (m, none) => .ok (m, none)
      | (m, some ws) =>
        match readCplx ws with
        | none => .ok (m, none)
        | some (z, ws) => do
          let m ← m.set i j z
          .ok (m, some ws))
    (fun i hi => by
      have h2 := forRange_traj n (fun j =>
          (({ m with mat := fun a b => if (a < i ∧ b < n) ∨ (a = i ∧ b < j) then M a b else m.mat a b } : IntMat),
            some ((((List.range n).drop j).map fun j => Word.cplx (M i j)) ++ W (i + 1))))
        (fun j s =>
          match s with
          | (m, none) => .ok (m, none)
          | (m, some ws) =>
            match readCplx ws with
            | none => .ok (m, none)
            | some (z, ws) => do
              let m ← m.set i j z
              .ok (m, some ws))
        (fun j hj => by
          simp only
          rw [List.drop_eq_getElem_cons (by simpa using hj)]
          simp only [List.getElem_range, List.map_cons, List.cons_append, readCplx, IntMat.set, hr, hc, hi, hj, and_self, if_true,
            Outcome.ok_bind]
          congr 3
          funext a b
          by_cases ha : a = i
          · subst ha
            by_cases hb : b = j
            · subst hb; simp
            · have : (b < j + 1) ↔ b < j := by omega
              simp [hb, this]
          · simp [ha])
      simp only [Nat.not_lt_zero, and_false, or_false, List.drop_zero] at h2
      rw [← hW i hi] at h2
      rw [h2]
      congr 2
      · congr 1
        funext a b
        by_cases ha : a = i
        · subst ha; simp
        · have : (a < i + 1) ↔ a < i := by omega
          simp [ha, this]
      · simp)
  simp only [Nat.not_lt_zero, false_and, if_false] at this
  simp only [W, List.drop_zero] at this
  refine this.trans ?_
  rw [List.drop_of_length_le (by simp)]
  rfl

theorem matrixWords_ok (m : IntMat) (hm : m.WF) : matrixWords m =
    .ok ((List.range m.names.length).flatMap fun i => (List.range m.names.length).map fun j => Word.cplx (m.mat i j)) := by
  unfold matrixWords
  rw [hm.waves]
  have := forRange_traj m.names.length (fun i =>
      (List.range i).flatMap fun i => (List.range m.names.length).map fun j => Word.cplx (m.mat i j))
    (fun i l => forRange m.names.length l fun j l => do
      let z ← m.get i j
      .ok (l ++ [.cplx z]))
    (fun i hi => by
      have h2 := forRange_traj m.names.length (fun j =>
          ((List.range i).flatMap fun i => (List.range m.names.length).map fun j => Word.cplx (m.mat i j)) ++
            (List.range j).map fun j => Word.cplx (m.mat i j))
        (fun j l => do
          let z ← m.get i j
          .ok (l ++ [.cplx z]))
        (fun j hj => by simp [IntMat.get, hm.rows, hm.cols, hi, hj, List.range_succ])
      simp only [List.range_zero, List.map_nil, List.append_nil] at h2
      rw [h2]; simp [List.range_succ])
  simpa using this

theorem nameWords_ok (m : IntMat) (hm : m.WF) : nameWords m =
    .ok ((List.range m.names.length).flatMap fun i =>
      (wordsOf (m.names.getD i "").toList).map Word.txt ++ [Word.num i]) := by
  unfold nameWords
  rw [hm.waves]
  exact forRange_traj m.names.length (fun i =>
      (List.range i).flatMap fun i => (wordsOf (m.names.getD i "").toList).map Word.txt ++ [Word.num i])
    _ (fun i hi => by simp [hi, List.range_succ])

/-- names that are a single word. -/
def OneWord (s : String) : Prop := s ≠ "" ∧ ∀ c ∈ s.toList, c.isWhitespace = false

theorem wordsOf_oneWord (s : String) (h : OneWord s) : wordsOf s.toList = [s.toList] := by
  unfold wordsOf
  have h1 : s.toList.splitOnP Char.isWhitespace = [s.toList] := by
    apply List.splitOnP_eq_singleton
    intro x hx
    rw [h.2 x hx]
  rw [h1]
  have : s.toList ≠ [] := by
    intro hc
    apply h.1
    exact String.ext (by simpa using hc)
  simp [this]

theorem readNames_ok (names : List String) (h : ∀ n ∈ names, OneWord n) (k : ℕ) (hk : k ≤ names.length) (l : List String)
    (hl : l.length = names.length) (hpre : ∀ i < names.length - k, l[i]? = names[i]?) :
    readNames k l (((List.range names.length).drop (names.length - k)).flatMap fun i =>
      (wordsOf (names.getD i "").toList).map Word.txt ++ [Word.num i]) = .ok (true, names) := by
  induction k generalizing l with
  | zero =>
    simp only [readNames]
    congr 2
    apply List.ext_getElem? 
    intro i
    by_cases hi : i < names.length
    · exact hpre i (by omega)
    · rw [List.getElem?_eq_none (by omega), List.getElem?_eq_none (by omega)]
  | succ k ih =>
    have hlt : names.length - (k + 1) < names.length := by omega
    rw [List.drop_eq_getElem_cons (by simpa using hlt)]
    simp only [List.getElem_range, List.flatMap_cons]
    have hn : OneWord (names.getD (names.length - (k + 1)) "") := by
      apply h; simp [hlt]
    rw [wordsOf_oneWord _ hn]
    simp only [List.map_cons, List.map_nil, List.cons_append, List.nil_append, readNames, readTxt, readNum]
    rw [if_pos (by omega)]
    rw [show names.length - (k + 1) + 1 = names.length - k by omega]
    apply ih (by omega) _ (by simpa using hl)
    intro i hi
    by_cases he : i = names.length - (k + 1)
    · subst he
      simp [hl, hlt]
    · rw [List.getElem?_set_ne (by omega)]
      exact hpre i (by omega)

/-- C22 (the part that holds): if the stream is the standard output itself and every wave name is a single word, reading the
written text into any matrix object reports success and gives the same waves, event number and entries.
Missing: every other stream, for which the property is false (`ascii_roundtrip_fails`). -/
theorem ascii_roundtrip_partial (m old : IntMat) (hm : m.WF) (hn : ∀ n ∈ m.names, OneWord n) :
    ∃ ws r, m.writeAscii true = .ok ws ∧ old.readAscii ws = .ok (true, r) ∧ r.WF ∧ r.names = m.names ∧
      r.nmbEvents = m.nmbEvents ∧ ∀ i j, r.element i j = m.element i j := by
  have hw : m.writeAscii true = .ok ([.num m.nmbWaves, .num m.nmbEvents, .num m.nmbWaves, .num m.nmbWaves] ++
      ((List.range m.names.length).flatMap fun i => (List.range m.names.length).map fun j => Word.cplx (m.mat i j)) ++
      [.num m.names.length] ++ ((List.range m.names.length).flatMap fun i =>
      (wordsOf (m.names.getD i "").toList).map Word.txt ++ [Word.num i])) := by
    unfold IntMat.writeAscii
    rw [matrixWords_ok m hm, nameWords_ok m hm]
    simp
  refine ⟨_, { old with
      nmbWaves := m.names.length, names := m.names, nmbEvents := m.nmbEvents, rows := m.names.length, cols := m.names.length,
      mat := fun i j => if i < m.names.length ∧ j < m.names.length then m.mat i j else
        (if i < old.rows ∧ j < old.cols then old.mat i j else 0) }, hw, ?_, ⟨rfl, rfl, rfl⟩, rfl, rfl, ?_⟩
  · unfold IntMat.readAscii
    rw [hm.waves]
    simp only [List.append_assoc, List.cons_append, List.nil_append, readNum]
    rw [readMatrix_ok m.names.length _ (by rfl) (by rfl)]
    simp only [Outcome.ok_bind]
    rw [if_neg (by simp)]
    have hlen : (resizeNames m.names.length old.names).length = m.names.length := by
      simp [resizeNames]; omega
    have h3 := readNames_ok m.names hn m.names.length le_rfl (resizeNames m.names.length old.names) hlen (by simp)
    simp only [Nat.sub_self, List.drop_zero] at h3
    simp only [IntMat.resize]
    rw [h3]
    rfl
  · intro i j
    unfold IntMat.element
    simp only [hm.waves]
    by_cases hi : i < m.names.length
    · by_cases hj : j < m.names.length
      · rw [if_neg (by omega), if_neg (by omega), if_neg (by omega), if_neg (by omega)]
        simp [IntMat.get, hm.rows, hm.cols, hi, hj]
      · rw [if_neg (by omega), if_pos (by omega), if_neg (by omega), if_pos (by omega)]
    · rw [if_pos (by omega), if_pos (by omega)]

/-- Finding (C22 is false of the code): for any stream other than the standard output, e.g. a file, reading the written
text back reports failure for every matrix with at least one wave. -/
theorem ascii_roundtrip_fails (m old : IntMat) (hm : m.WF) (h1 : m.names ≠ []) :
    ∃ ws r, m.writeAscii false = .ok ws ∧ old.readAscii ws = .ok (false, r) := by
  have hw : m.writeAscii false = .ok ([.num m.nmbWaves, .num m.nmbEvents, .num m.nmbWaves, .num m.nmbWaves] ++
      ((List.range m.names.length).flatMap fun i => (List.range m.names.length).map fun j => Word.cplx (m.mat i j)) ++
      [.num m.names.length]) := by
    unfold IntMat.writeAscii
    rw [matrixWords_ok m hm, nameWords_ok m hm]
    simp
  suffices h : ∃ r, old.readAscii ([.num m.nmbWaves, .num m.nmbEvents, .num m.nmbWaves, .num m.nmbWaves] ++
      ((List.range m.names.length).flatMap fun i => (List.range m.names.length).map fun j => Word.cplx (m.mat i j)) ++
      [.num m.names.length]) = .ok (false, r) by
    obtain ⟨r, hr⟩ := h
    exact ⟨_, r, hw, hr⟩
  unfold IntMat.readAscii
  rw [hm.waves]
  simp only [List.append_assoc, List.cons_append, List.nil_append, readNum]
  rw [readMatrix_ok m.names.length _ (by rfl) (by rfl)]
  simp only [Outcome.ok_bind]
  obtain ⟨k, hk⟩ := Nat.exists_eq_succ_of_ne_zero (fun hc => h1 (List.length_eq_zero_iff.1 hc))
  rw [if_neg (by simp), hk]
  simp only [readNames, readTxt]
  exact ⟨_, rfl⟩

/-- Non-vacuity: two waves with typical names. -/
example : ∃ ws r, (IntMat.mk 2 ["[1-,0-+,0+]=a", "[1-,1++,0+]=b"] 7 2 2 (fun i j => (i : ℂ) + j * Complex.I) []).writeAscii true = .ok ws ∧
    empty.readAscii ws = .ok (true, r) ∧ r.nmbEvents = 7 := by
  obtain ⟨ws, r, h1, h2, _, _, h5, _⟩ := ascii_roundtrip_partial
    (IntMat.mk 2 ["[1-,0-+,0+]=a", "[1-,1++,0+]=b"] 7 2 2 (fun i j => (i : ℂ) + j * Complex.I) []) empty ⟨rfl, rfl, rfl⟩
    (by intro n hn
        simp at hn
        rcases hn with rfl | rfl <;> exact ⟨by decide, by decide⟩)
  exact ⟨ws, r, h1, h2, h5⟩

end Rpwa.Integral
