import Verif.Model.Vertex
import Verif.Props.Spin
import Verif.Props.Clebsch
/-!
# C18: consistency check of a two-body isobar decay vertex

Specification (independent of the model): `Allowed`, the list of conservation laws of a strong decay
`parent → d1 d2` with orbital angular momentum `L` and total daughter spin `S` (units of ħ/2), as written in
any textbook.  The isospin law is stated with the Clebsch-Gordan coefficient of `Spec/Clebsch`. -/
namespace Rpwa.Vertex
open Rpwa.Spin (Triangle)
open Rpwa.Clebsch (racah Selected)

/-- `(-1)^(n/2)` of an even number. -/
def HalfSign (n : ℤ) (s : ℤ) : Prop := (n % 4 = 0 ∧ s = 1) ∨ (n % 4 ≠ 0 ∧ s = -1)

/-- C-parity is related to G-parity by `C = G (-1)^I` for neutral particles and undefined (0) for charged ones. -/
def CParityOk (q : Qn) : Prop :=
  (q.charge = 0 → ∃ s, HalfSign q.isospin s ∧ q.C = q.G * s) ∧ (q.charge ≠ 0 → q.C = 0)

/-- The conservation laws of the vertex. -/
structure Allowed (p d1 d2 : Qn) (L S : ℤ) : Prop where
  charge : p.charge = d1.charge + d2.charge
  baryon : p.baryonNmb = d1.baryonNmb + d2.baryonNmb
  strange : p.strangeness = d1.strangeness + d2.strangeness
  charm : p.charm = d1.charm + d2.charm
  beauty : p.beauty = d1.beauty + d2.beauty
  gParity : p.G = d1.G * d2.G
  parity : ∃ s, HalfSign L s ∧ p.P = d1.P * d2.P * s
  lInteger : 2 ∣ L
  nonneg : 0 ≤ d1.J ∧ 0 ≤ d2.J ∧ 0 ≤ L ∧ 0 ≤ S
  spins : Triangle d1.J d2.J S
  angMom : Triangle L S p.J
  isospin : racah d1.isospin d1.isospinProj d2.isospin d2.isospinProj p.isospin p.isospinProj ≠ 0
  c1 : CParityOk d1
  c2 : CParityOk d2
  cp : CParityOk p

/-- the six-argument coupling test of the code (`utilities/spinUtils.hpp` l.400-409) in a state `s` of the
Clebsch-Gordan functor: `clebschGordanCoeff(...) != 0`; `false` if the call does not return. -/
noncomputable def cgTest (s : Clebsch.State) : CgTest := fun j1 m1 j2 m2 J M =>
  match Clebsch.call s j1 m1 j2 m2 J M with
  | .ok (v, _) => by classical exact decide (v ≠ 0)
  | _ => false

theorem mod4IsZero_iff (x : ℤ) : mod4IsZero x = true ↔ x % 4 = 0 := by
  unfold mod4IsZero; rw [beq_iff_eq, ← Int.dvd_iff_tmod_eq_zero, Int.dvd_iff_emod_eq_zero]

theorem cInconsistent_iff (q : Qn) : cInconsistent q = false ↔ CParityOk q := by
  unfold cInconsistent CParityOk HalfSign
  by_cases hq : q.charge = 0 <;> by_cases hm : q.isospin % 4 = 0 <;>
    simp [hq, hm, mod4IsZero_iff]

/-- C18: for any history of Clebsch-Gordan requests before the check, as long as the isospins are inside the
table (any physical isospin is), the check accepts a vertex iff every conservation law holds. -/
theorem checkConsistency_iff (ops : List Clebsch.Op) (s : Clebsch.State)
    (h : Clebsch.run Clebsch.init ops = some s) (p d1 d2 : Qn) (L S : ℤ)
    (hI : d1.isospin < 18 ∧ d2.isospin < 18 ∧ p.isospin < 18) :
    checkConsistency (cgTest s) p d1 d2 L S = true ↔ Allowed p d1 d2 L S := by
  have hcg : cgTest s d1.isospin d1.isospinProj d2.isospin d2.isospinProj p.isospin p.isospinProj = true ↔
      racah d1.isospin d1.isospinProj d2.isospin d2.isospinProj p.isospin p.isospinProj ≠ 0 := by
    unfold cgTest
    rcases Clebsch.request_after_any_history ops s h d1.isospin d1.isospinProj d2.isospin d2.isospinProj
      p.isospin p.isospinProj with ⟨_, hb, _⟩ | ⟨_, s', hs⟩
    · omega
    · rw [hs]; simp
  have hL : ∀ s : ℤ, (HalfSign L s ∧ p.P = d1.P * d2.P * s) ↔
      (s = (if mod4IsZero L then 1 else -1) ∧ p.P = d1.P * d2.P * (if mod4IsZero L then 1 else -1)) := by
    intro s
    unfold HalfSign
    by_cases hm : L % 4 = 0
    · have := (mod4IsZero_iff L).2 hm; rw [this]; simp [hm]; intro hs; rw [hs]; simp
    · have : mod4IsZero L = false := by
        rw [Bool.eq_false_iff]; intro h; exact hm ((mod4IsZero_iff _).1 h)
      rw [this]; simp [hm]; intro hs; rw [hs]; simp
  have hev : isEven L = true ↔ 2 ∣ L := by rw [Spin.isEven_iff]; omega
  unfold checkConsistency checkMultiplicativeQn checkAdditiveQn
  simp only [Bool.and_eq_true, beq_iff_eq, Bool.not_eq_true', Bool.or_eq_false_iff, cInconsistent_iff,
    Spin.spinStatesCanCouple_iff, hcg, hev]
  constructor
  · rintro ⟨⟨⟨⟨⟨⟨⟨⟨⟨⟨⟨hG, hP⟩, hq⟩, hb⟩, hs⟩, hc⟩, hbe⟩, hl⟩, hS⟩, hJ⟩, hi⟩, ⟨c1, c2⟩, cp⟩
    exact ⟨hq, hb, hs, hc, hbe, hG, ⟨_, (hL _).2 ⟨rfl, hP⟩⟩, hl, ⟨hS.1, hS.2.1, hJ.1, hJ.2.1⟩, hS.2.2,
      hJ.2.2, hi, c1, c2, cp⟩
  · intro a
    obtain ⟨s, hs⟩ := a.parity
    have hP := ((hL s).1 hs).2
    exact ⟨⟨⟨⟨⟨⟨⟨⟨⟨⟨⟨a.gParity, hP⟩, a.charge⟩, a.baryon⟩, a.strange⟩, a.charm⟩, a.beauty⟩, a.lInteger⟩,
      ⟨a.nonneg.1, a.nonneg.2.1, a.spins⟩⟩, ⟨a.nonneg.2.2.1, a.nonneg.2.2.2, a.angMom⟩⟩, a.isospin⟩,
      ⟨a.c1, a.c2⟩, a.cp⟩

/-- C18, consequence: an accepted vertex conserves the third component of isospin and obeys the isospin
triangle rule. -/
theorem checkConsistency_isospin (ops : List Clebsch.Op) (s : Clebsch.State)
    (h : Clebsch.run Clebsch.init ops = some s) (p d1 d2 : Qn) (L S : ℤ)
    (hI : d1.isospin < 18 ∧ d2.isospin < 18 ∧ p.isospin < 18)
    (hc : checkConsistency (cgTest s) p d1 d2 L S = true) :
    d1.isospinProj + d2.isospinProj = p.isospinProj ∧ Triangle d1.isospin d2.isospin p.isospin := by
  have ha := (checkConsistency_iff ops s h p d1 d2 L S hI).1 hc
  have hsel : Selected d1.isospin d1.isospinProj d2.isospin d2.isospinProj p.isospin p.isospinProj := by
    by_contra hn
    exact ha.isospin (by rw [racah, if_neg hn])
  exact ⟨hsel.2.2.2.1, hsel.2.2.2.2.1, hsel.2.2.2.2.2.1, hsel.2.2.2.2.2.2.1, hsel.2.2.2.2.2.2.2⟩

/-- C18: whatever the coupling test returns, a vertex with two kaons (particles without G-parity, stored as 0)
is rejected for every parent that is a G-parity eigenstate: φ(1020) → K⁺K⁻, f2' → K K̄, ... can not pass the
check although they conserve every quantum number. -/
theorem g_eigenstate_to_non_eigenstates_rejected (cg : CgTest) (p d1 d2 : Qn) (L S : ℤ)
    (hp : p.G ≠ 0) (hd : d1.G = 0 ∨ d2.G = 0) : checkConsistency cg p d1 d2 L S = false := by
  rw [Bool.eq_false_iff]; intro hc
  unfold checkConsistency checkMultiplicativeQn at hc
  simp only [Bool.and_eq_true, beq_iff_eq] at hc
  apply hp
  rw [hc.1.1.1.1.1.1.1.1.1.1.1]
  rcases hd with h | h <;> simp [h]

/-- ρ⁰ → π⁺π⁻ in a P wave. -/
def rho0 : Qn := ⟨0, 0, 0, 0, 0, 2, 1, 2, -1, -1⟩
def piPlus : Qn := ⟨1, 0, 0, 0, 0, 2, -1, 0, -1, 0⟩
def piMinus : Qn := ⟨-1, 0, 0, 0, 0, 2, -1, 0, -1, 0⟩
def phi : Qn := ⟨0, 0, 0, 0, 0, 0, -1, 2, -1, -1⟩
def kPlus : Qn := ⟨1, 0, 1, 0, 0, 1, 0, 0, -1, 0⟩
def kMinus : Qn := ⟨-1, 0, -1, 0, 0, 1, 0, 0, -1, 0⟩

theorem rho_racah : racah 2 2 2 (-2) 2 0 ≠ 0 := by
  have hs : Selected 2 2 2 (-2) 2 0 := by
    refine ⟨⟨2, by norm_num, by norm_num⟩, ⟨0, by norm_num, by norm_num⟩, ⟨1, by norm_num, by norm_num⟩, by norm_num,
      by norm_num, by norm_num, by norm_num, 1, by norm_num⟩
  rw [racah, if_pos hs]
  have e : ((2 + 2 - 2 : ℤ)).toNat / 2 + 1 = 2 := by decide
  rw [e]
  have e4 : Int.toNat 4 = 4 := rfl
  norm_num [e4, Clebsch.hfac, Clebsch.rfac, Finset.sum_range_succ, Nat.factorial]
  exact Nat.factorial_ne_zero _

example : Allowed rho0 piPlus piMinus 2 0 := by
  refine ⟨rfl, rfl, rfl, rfl, rfl, rfl, ⟨-1, by unfold HalfSign; decide, rfl⟩, by decide, by decide,
    ⟨by decide, by decide, by decide, 0, by decide⟩, ⟨by decide, by decide, by decide, 0, by decide⟩, rho_racah,
    ?_, ?_, ?_⟩
  · exact ⟨fun h => absurd h (by decide), fun _ => rfl⟩
  · exact ⟨fun h => absurd h (by decide), fun _ => rfl⟩
  · exact ⟨fun _ => ⟨-1, by unfold HalfSign; decide, rfl⟩, by decide⟩

example : ∀ cg, checkConsistency cg phi kPlus kMinus 2 0 = false :=
  fun cg => g_eigenstate_to_non_eigenstates_rejected cg _ _ _ _ _ (by decide) (by decide)
example : phi.charge = kPlus.charge + kMinus.charge ∧ phi.P = kPlus.P * kMinus.P * (-1) := by decide

end Rpwa.Vertex
