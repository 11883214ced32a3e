import Verif.Spec.Anchors
import Verif.Props.DataObj
/-! # C108: the anchor waves of a resonance fit -/
namespace Rpwa.DataObj

open Rpwa.Arrays

theorem findWave_spec (names : Arr String) (B w b : ℕ) (hs : names.shape = [B, w]) (hb : b < B) (name : String) :
    ∀ k i, i + k ≤ w → ∃ j, findWave names b name k i = .ok j ∧ i ≤ j ∧ j ≤ i + k ∧ (∀ l, i ≤ l → l < j → names.elem [b, l] ≠ name) ∧
      (j < i + k → names.elem [b, j] = name) := by
  intro k
  induction k with
  | zero => intro i _; exact ⟨i, rfl, le_refl _, le_refl _, fun l h1 h2 => absurd h2 (by omega), fun h => absurd h (by omega)⟩
  | succ k ih =>
    intro i hi
    unfold findWave
    rw [at_ok names _ (by rw [hs]; exact (inRange_two _ _ _ _).2 ⟨hb, by omega⟩), Outcome.ok_bind]
    by_cases h : names.elem [b, i] = name
    · rw [if_pos h]
      exact ⟨i, rfl, le_refl _, by omega, fun l h1 h2 => absurd h2 (by omega), fun _ => h⟩
    · rw [if_neg h]
      obtain ⟨j, j1, j2, j3, j4, j5⟩ := ih (i + 1) (by omega)
      refine ⟨j, j1, by omega, by omega, fun l h1 h2 => ?_, fun hj => j5 (by omega)⟩
      rcases Nat.eq_or_lt_of_le h1 with rfl | h1
      · exact h
      · exact j4 l h1 h2

theorem anchorLoop_spec (names : Arr String) (B w : ℕ) (hs : names.shape = [B, w]) : ∀ (ns : List ℕ) (as : List String) (b : ℕ),
    as.length = ns.length → b + ns.length ≤ B → (∀ n ∈ ns, n ≤ w) →
    ((∀ (c n : ℕ) (a : String), ns[c]? = some n → as[c]? = some a → ∃ i < n, names.elem [b + c, i] = a) →
      ∃ r, anchorLoop names ns as b = .ok r ∧ r.length = ns.length ∧ ∀ (c n : ℕ) (a : String) (i : ℕ), ns[c]? = some n → as[c]? = some a →
        r[c]? = some i → i < n ∧ names.elem [b + c, i] = a ∧ ∀ j < i, names.elem [b + c, j] ≠ a) ∧
    (¬ (∀ (c n : ℕ) (a : String), ns[c]? = some n → as[c]? = some a → ∃ i < n, names.elem [b + c, i] = a) →
      anchorLoop names ns as b = .terminate) := by
  intro ns
  induction ns with
  | nil =>
    intro as b _ _ _
    exact ⟨fun _ => ⟨[], by unfold anchorLoop; rfl, rfl, fun c n a i h => by simp at h⟩, fun h => absurd (fun c n a h' => by simp at h') h⟩
  | cons n ns ih =>
    intro as b hl hb hw
    cases as with
    | nil => simp at hl
    | cons a as =>
      simp only [List.length_cons] at hl hb
      obtain ⟨j, j1, -, j3, j4, j5⟩ := findWave_spec names B w b hs (by omega) a n 0 (by have := hw n (by simp); omega)
      simp only [Nat.zero_add] at j3 j5
      obtain ⟨g1, g2⟩ := ih as (b + 1) (by omega) (by omega) (fun k hk => hw k (by simp [hk]))
      by_cases hj : n ≤ j
      · refine ⟨fun h => ?_, fun _ => ?_⟩
        · obtain ⟨i, hi, he⟩ := h 0 n a rfl rfl
          exact absurd he (j4 i (Nat.zero_le _) (by omega))
        · unfold anchorLoop
          rw [j1, Outcome.ok_bind, if_pos hj]
      · have hfirst := j5 (by omega)
        refine ⟨fun h => ?_, fun h => ?_⟩
        · obtain ⟨r, r1, r2, r3⟩ := g1 fun c k x h1 h2 => by
            have := h (c + 1) k x (by simpa using h1) (by simpa using h2)
            rwa [show b + 1 + c = b + (c + 1) from by omega]
          refine ⟨j :: r, ?_, by simp [r2], ?_⟩
          · unfold anchorLoop
            rw [j1, Outcome.ok_bind, if_neg hj, r1, Outcome.ok_bind]
          · intro c k x i h1 h2 h3
            cases c with
            | zero =>
              simp only [List.getElem?_cons_zero, Option.some.injEq] at h1 h2 h3
              subst h1 h2 h3
              exact ⟨by omega, hfirst, fun l hl => j4 l (Nat.zero_le _) hl⟩
            | succ c =>
              have := r3 c k x i (by simpa using h1) (by simpa using h2) (by simpa using h3)
              rwa [show b + 1 + c = b + (c + 1) from by omega] at this
        · unfold anchorLoop
          rw [j1, Outcome.ok_bind, if_neg hj, g2, Outcome.terminate_bind]
          intro hall
          refine h fun c k x h1 h2 => ?_
          cases c with
          | zero =>
            simp only [List.getElem?_cons_zero, Option.some.injEq] at h1 h2
            subst h1 h2
            exact ⟨j, by omega, hfirst⟩
          | succ c =>
            have := hall c k x (by simpa using h1) (by simpa using h2)
            rwa [show b + 1 + c = b + (c + 1) from by omega] at this

/-- **C108.** If there is one anchor wave per bin and every bin has a wave with this name, its first index is found in every bin. -/
theorem anchors_found (names : Arr String) (w : ℕ) (nrWaves : List ℕ) (anchors : List String) (hs : names.shape = [nrWaves.length, w])
    (hw : ∀ n ∈ nrWaves, n ≤ w) (h : HasAnchors names nrWaves anchors) :
    ∃ r, anchorIndices names nrWaves anchors = .ok r ∧ AreAnchors names nrWaves anchors r := by
  obtain ⟨r, r1, r2, r3⟩ := (anchorLoop_spec names _ w hs nrWaves anchors 0 h.1 (by omega) hw).1 fun c n a h1 h2 => by
    simpa using h.2 c n a h1 h2
  refine ⟨r, ?_, r2, fun b n a i h1 h2 h3 => by simpa using r3 b n a i h1 h2 h3⟩
  unfold anchorIndices
  rw [if_neg (not_not.2 h.1.symm), r1]

/-- **C108.** Otherwise the program ends; also if the name is only one of another bin, or of the empty names behind the waves of a bin. -/
theorem anchors_missing (names : Arr String) (w : ℕ) (nrWaves : List ℕ) (anchors : List String) (hs : names.shape = [nrWaves.length, w])
    (hw : ∀ n ∈ nrWaves, n ≤ w) (h : ¬ HasAnchors names nrWaves anchors) : anchorIndices names nrWaves anchors = .terminate := by
  unfold anchorIndices
  by_cases hl : nrWaves.length = anchors.length
  · rw [if_neg (not_not.2 hl)]
    refine (anchorLoop_spec names _ w hs nrWaves anchors 0 hl.symm (by omega) hw).2 fun hall => h ⟨hl.symm, fun b n a h1 h2 => ?_⟩
    simpa using hall b n a h1 h2
  · rw [if_pos hl]

/-- two bins with one and two waves: the anchor of the second bin is its second wave; the empty name behind the wave of the first bin is not found. -/
def exNames : Arr String := ⟨[2, 2], fun x => if x = [0, 0] then "a" else if x = [1, 0] then "b" else if x = [1, 1] then "a" else ""⟩

theorem ex_anchors : exNames.shape = [[1, 2].length, 2] ∧ (∀ n ∈ [1, 2], n ≤ 2) ∧ HasAnchors exNames [1, 2] ["a", "a"] ∧
    anchorIndices exNames [1, 2] ["a", "a"] = .ok [0, 1] ∧ ¬ HasAnchors exNames [1, 2] ["", "a"] ∧ ¬ HasAnchors exNames [1, 2] ["a"] := by
  refine ⟨rfl, by decide, ⟨rfl, ?_⟩, rfl, ?_, fun h => absurd h.1 (by decide)⟩
  · intro b n a h1 h2
    rcases b with _ | _ | b
    · simp at h1 h2; subst h1 h2; exact ⟨0, by decide, rfl⟩
    · simp at h1 h2; subst h1 h2; exact ⟨1, by decide, rfl⟩
    · simp at h1
  · intro h
    obtain ⟨i, hi, he⟩ := h.2 0 1 "" rfl rfl
    obtain rfl : i = 0 := by omega
    revert he
    decide

end Rpwa.DataObj
