import Verif.Props.CheckKeyMain
import Verif.Props.AmplitudeExample
/-! # C95: examples -/
namespace Rpwa.CheckKey

open Rpwa.Amp Rpwa.Amp.Spec Rpwa.Gen

/-- a wave with the given transformed amplitudes, for events that are complex numbers. -/
noncomputable def exWave (refl : ℤ) (s r : ℂ) : Wave ℂ :=
  ⟨true, true, true, true, true, fun _ => true, fun sw z => if sw.spaceInversion then s * z else if sw.reflection then r * z else z, 1, refl, -1⟩

theorem ex_signs (s r : ℂ) : Signs (exWave 1 s r) := ⟨Or.inl rfl, Or.inl rfl, Or.inr rfl⟩
theorem ex_consistent (k : ℤ) (s r : ℂ) : Consistent (exWave k s r) := ⟨rfl, rfl, rfl⟩
theorem ex_comparable (k : ℤ) (s r : ℂ) : Comparable (-1) [1, ⟨2, 3⟩] (exWave k s r) := ⟨rfl, rfl, fun _ _ => rfl, by decide⟩
theorem ex_used : usedEvents (-1) [(1 : ℂ), ⟨2, 3⟩] = [1, ⟨2, 3⟩] := rfl
theorem ex_two : (⟨2, 3⟩ : ℂ) ≠ 0 := fun h => by have := congrArg Complex.re h; norm_num at this

/-- right symmetry; wrong sign under inversion; an amplitude a thousand times too large. -/
example : checkWave (-1) 1e-6 (some [1, ⟨2, 3⟩]) (exWave 1 (-1) 1) = .ok ([], true) :=
  growing_accepted (by norm_num) (ex_consistent _ _ _) (ex_comparable _ _ _) (ex_signs _ _) (fun _ => 1) (fun _ => 1) (fun _ _ => Or.inr le_rfl)
    (fun _ _ => Or.inr le_rfl) (by intro e he; rcases List.mem_pair.1 he with rfl | rfl; exacts [one_ne_zero, ex_two])
    (by intro e _; simp [exWave, spaceInvSign, inverted, plain]) (by intro e _; simp [exWave, reflSign, reflected, plain])

example : ∃ errs, checkWave (-1) 1e-6 (some [1, ⟨2, 3⟩]) (exWave 1 1 1) = .ok (errs, false) ∧ .spaceInv ∈ errs :=
  (opposite_sign_found (by norm_num) (ex_consistent _ _ _) (ex_comparable _ _ _) (ex_signs _ _) (e := 1) (by rw [ex_used]; simp) one_ne_zero).1
    (by simp [exWave, spaceInvSign, inverted, plain])

example : checkWave (-1) 1e-6 (some [1, ⟨2, 3⟩]) (exWave 1 (-1000) 0) = .ok ([], true) :=
  growing_accepted (by norm_num) (ex_consistent _ _ _) (ex_comparable _ _ _) (ex_signs _ _) (fun _ => 1000) (fun _ => 0) (fun _ _ => Or.inr (by norm_num))
    (fun _ _ => Or.inl rfl) (by intro e he; rcases List.mem_pair.1 he with rfl | rfl; exacts [one_ne_zero, ex_two])
    (by intro e _; simp [exWave, spaceInvSign, inverted, plain]) (by intro e _; simp [exWave, reflSign, reflected, plain])

/-- no reflectivity. -/
example : checkWave (-1) 1e-6 (some [1, ⟨2, 3⟩]) (exWave 0 (-1) 1) = .ub :=
  checkWave_undefined (ex_consistent _ _ _) (ex_comparable _ _ _) (Or.inl rfl)

/-- a file with an inconsistent wave: the error is noted, the program ends with status 0. -/
example : ∃ rep, checkKeyFiles (-1) 1e-6 (none : Option (List ℂ)) [("a.key", [{ exWave 1 (-1) 1 with checkConsistency := false }])] = .ok rep ∧ rep.exit = 0 := by
  obtain ⟨rep, h1, -, h2, -⟩ := checkKeyFiles_report (n := -1) (δ := 1e-6) (by norm_num) (data := (none : Option (List ℂ)))
    (fs := [("a.key", [{ exWave 1 (-1) 1 with checkConsistency := false }])]) (by
      intro f hf w hw hc
      rw [List.mem_singleton.1 hf] at hw
      rw [List.mem_singleton.1 hw] at hc
      exact Bool.noConfusion hc.consistency)
  refine ⟨rep, h1, h2.2 ?_⟩
  intro f hf
  rw [List.mem_singleton.1 hf]
  refine ⟨by simp, ?_⟩
  rintro w - ⟨-, es, h, -⟩
  cases h

/-- two pions, back to back. -/
noncomputable def exPions : ℕ → LV
  | 0 => ⟨0, 0, 1, 2⟩
  | _ => ⟨0, 0, -1, 2⟩

/-- `f0 → pi pi` passes. -/
example (beam : LV) : checkWave 0 0 (some [(beam, exPions)]) (waveOf canonical [(1, [0, 1])] exScalar) = .ok ([], true) := by
  have hX : MesonicX exScalar := ⟨by decide, by decide, by decide, by decide, by decide, by decide, Or.inl rfl, Or.inr rfl, rfl, rfl⟩
  refine conserving_wave_passes (X := exScalar) hX
    ⟨by decide, Or.inr rfl, Or.inr rfl⟩ 0 le_rfl _ (by simp) (Or.inr ⟨rfl, ?_⟩) ?_
  · intro e he t ht
    rw [List.mem_singleton.1 he, List.mem_singleton.1 ht]
    have ht : total (fun i => exPions (([0, 1] : List ℕ).getD i 0)) exScalar = ⟨0, 0, 0, 4⟩ := by
      show exPions 0 + exPions 1 = _
      rw [lv_add]
      unfold exPions
      ext <;> norm_num
    refine ⟨?_, ?_⟩
    · show 0 < (total (fun i => exPions (([0, 1] : List ℕ).getD i 0)) exScalar).m2
      rw [ht]; unfold LV.m2; norm_num
    · show 0 < (total (fun i => exPions (([0, 1] : List ℕ).getD i 0)) exScalar).t
      rw [ht]; norm_num
  · intro e he
    rw [List.mem_singleton.1 he]
    unfold amplitude
    rw [List.foldl_cons, List.foldl_nil, ← formalisms_agree hX rfl rfl, scalar_amplitude]
    norm_num

end Rpwa.CheckKey
