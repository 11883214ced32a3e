import Verif.Props.KeyFile

/-!
# Key files: what is read from the settings of particles and of the generalised LASS parametrisation
-/

namespace Rpwa.KeyFile

open Rpwa.Particle

/-- a particle of a key file is the one of the particle data table, with the spin projection and the
index of the key file where they are given -/
theorem particle_read {t : Table} {key : Setting} {n : Name} {p : Part}
    (hn : key.lookupStr "name" = some n) (hp : createParticle t n = .ok p) :
    constructParticle t key = .ok (some { p with
      spinProj := (key.lookupInt "spinProj").getD p.spinProj,
      index := (key.lookupInt "index").getD p.index }) := by
  unfold constructParticle
  rw [hn]
  dsimp only
  rw [hp, Outcome.ok_bind]
  cases key.lookupInt "spinProj" <;> cases key.lookupInt "index" <;> rfl

theorem lookupParameter_ok {key : Setting} {n : String} {x : ℚ} :
    lookupParameter key n = .ok x ↔ key.lookupFloat n = some x := by
  unfold lookupParameter
  cases key.lookupFloat n with
  | none => simp
  | some y => simp

theorem glass_bind {α β : Type} {x : Outcome α} {f : α → Outcome β} {b : β} :
    (x >>= f) = .ok b ↔ ∃ a, x = .ok a ∧ f a = .ok b := by
  cases x with
  | ok a => simp
  | terminate => simp
  | ub => simp

/-- the generalised LASS parametrisation is created exactly if all ten numbers and a tag without the
separators of wave names are given, and each number is the one of that name -/
theorem glass_read {key : Setting} {md : MassDep} :
    createMassDependence "KPiSGLASS".toList key = .ok (some md) ↔
    ∃ g : Glass, md = .glass g ∧
      key.lookupFloat "a" = some g.a ∧ key.lookupFloat "r" = some g.r ∧
      key.lookupFloat "M0" = some g.M0 ∧ key.lookupFloat "G0" = some g.G0 ∧
      key.lookupFloat "phiF" = some g.phiF ∧ key.lookupFloat "phiR" = some g.phiR ∧
      key.lookupFloat "phiRsin" = some g.phiRsin ∧ key.lookupFloat "F" = some g.F ∧
      key.lookupFloat "R" = some g.R ∧ key.lookupFloat "MMax" = some g.MMax ∧
      key.lookupStr "tag" = some g.tag ∧ ∀ c ∈ g.tag, c ∉ ['>', '<', ']', '[', '='] := by
  have e : createMassDependence "KPiSGLASS".toList key = createGlass key >>= fun m => .ok (some m) := by
    unfold createMassDependence
    rw [if_neg (by decide), if_neg (by decide), if_neg (by decide), if_neg (by decide), if_neg (by decide),
      if_neg (by decide)]
    have : plainByName "KPiSGLASS".toList = none := by decide
    rw [this]
    dsimp only
    rw [if_pos rfl]
    rfl
  rw [e]
  unfold createGlass
  simp only [glass_bind, lookupParameter_ok, Outcome.ok.injEq, Option.some.injEq]
  constructor
  · rintro ⟨md', ⟨a, ha, r, hr, M0, hM0, G0, hG0, pF, hpF, pR, hpR, ps, hps, F, hF, R, hR, MM, hMM, h⟩, rfl⟩
    cases ht : key.lookupStr "tag" with
    | none => rw [ht] at h; cases h
    | some tag =>
      rw [ht] at h
      dsimp only at h
      by_cases hb : tag.any (fun c => ['>', '<', ']', '[', '='].contains c)
      · rw [if_pos hb] at h; cases h
      · rw [if_neg hb] at h
        cases h
        refine ⟨_, rfl, ha, hr, hM0, hG0, hpF, hpR, hps, hF, hR, hMM, rfl, ?_⟩
        intro c hc hm
        exact hb (List.any_eq_true.mpr ⟨c, hc, List.contains_iff_mem.mpr hm⟩)
  · rintro ⟨g, rfl, ha, hr, hM0, hG0, hpF, hpR, hps, hF, hR, hMM, ht, hc⟩
    refine ⟨_, ⟨_, ha, _, hr, _, hM0, _, hG0, _, hpF, _, hpR, _, hps, _, hF, _, hR, _, hMM, ?_⟩, rfl⟩
    rw [ht]
    dsimp only
    rw [if_neg]
    rw [List.any_eq_true]
    rintro ⟨c, h1, h2⟩
    exact hc c h1 (List.contains_iff_mem.mp h2)

/-- the key file of an X with a relativistic Breit-Wigner amplitude says so, and reading ignores it:
the vertex of X gets the flat mass dependence -/
theorem X_massDep_written (prec : ℚ → ℚ) :
    massDepKeys prec true .relBW = [("massDep", .group [("name", .str "relativisticBreitWigner".toList)])] ∧
    massDepKeys prec false .relBW = [] ∧ massDepKeys prec true .flat = [] := ⟨rfl, rfl, rfl⟩

/-- one key file with all parameters -/
def Ex.glassKey : Setting := .group [("name", .str "KPiSGLASS".toList), ("a", .float 1), ("r", .float 2), ("M0", .float 3),
  ("G0", .float 4), ("phiF", .float 5), ("phiR", .float 6), ("phiRsin", .float 7), ("F", .float 8), ("R", .float 9),
  ("MMax", .float 10), ("tag", .str "t1".toList)]

theorem Ex.glass_created : createMassDependence "KPiSGLASS".toList Ex.glassKey
    = .ok (some (.glass ⟨1, 2, 3, 4, 5, 6, 7, 8, 9, 10, "t1".toList⟩)) := by
  rw [glass_read]
  exact ⟨_, rfl, rfl, rfl, rfl, rfl, rfl, rfl, rfl, rfl, rfl, rfl, rfl, by decide⟩

end Rpwa.KeyFile
