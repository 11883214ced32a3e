import Verif.Model.SpinTensor
import Verif.Spec.CgBox
import Verif.Spec.Fraction
import Mathlib.LinearAlgebra.Matrix.Determinant.Basic
import Mathlib.Data.Complex.Basic
/-!
# Specification of spin wave functions and covariant amplitudes (independent of the code)

Vectors of helicity states in the rest frame of the decaying particle, the `z` axis along the momentum. The component along the
momentum is scaled by a Lorentz factor: `γs` for the first decay particle, `γσ` for the second one, 1 for the others.
-/
namespace Rpwa.SpinTensor.Spec
open Fraction Clebsch

/-- all sequences of `n` helicities -/
def hels : ℕ → List (List ℤ)
  | 0 => [[]]
  | n + 1 => [-1, 0, 1].flatMap fun m => (hels n).map (· ++ [m])

/-- the polarization vector of helicity `m` -/
noncomputable def vec (γ : ℝ) (m : ℤ) : Fin 3 → ℂ :=
  if m = 1 then ![-1 / Real.sqrt 2, -Complex.I / Real.sqrt 2, 0]
  else if m = -1 then ![1 / Real.sqrt 2, -Complex.I / Real.sqrt 2, 0]
  else if m = 0 then ![0, 0, γ]
  else 0

/-- its complex conjugate -/
noncomputable def vecConj (m : ℤ) : Fin 3 → ℂ := fun i => (starRingEnd ℂ) (vec 1 m i)

/-- scalar product without conjugation -/
noncomputable def dot (u v : Fin 3 → ℂ) : ℂ := ∑ i, u i * v i

/-- triple product `u · (v × w)` -/
noncomputable def triple (u v w : Fin 3 → ℂ) : ℂ := Matrix.det (Matrix.of ![u, v, w])

/-- component of the wave function of spin `J`, projection `Σ m`, along `m₁ ⊗ … ⊗ m_J` -/
noncomputable def wave (J : ℕ) (m : List ℤ) : ℝ :=
  Real.sqrt (2 ^ (m.count 0) * (J + m.sum).toNat.factorial * (J - m.sum).toNat.factorial / (2 * J).factorial)

/-- component of the orbital tensor: the part of `z ⊗ … ⊗ z` with spin `L`, i.e. the wave function with projection 0 times
its component along `z ⊗ … ⊗ z` -/
noncomputable def orbital (L : ℕ) (m : List ℤ) : ℝ :=
  if m.sum = 0 then wave L m * wave L (List.replicate L 0) else 0

/-- product of the scalar products of the pairs `(f aᵢ, g bᵢ)` -/
noncomputable def contract (f g : ℤ → Fin 3 → ℂ) (a b : List ℤ) : ℂ := (List.zipWith (fun x y => dot (f x) (g y)) a b).prod

/-- a tensor that is left over after the contractions: a scalar or three vectors -/
noncomputable def leftOver (vs : List (Fin 3 → ℂ)) : ℂ :=
  match vs with
  | [] => 1
  | [u, v, w] => triple u v w
  | _ => 0

/-- contraction of the product of the polarization vectors `o` (first particle), `e` (second particle), `c` (orbital angular
momentum) and `p` (decaying particle, conjugated): pairs are taken from the ends of the sequences, first `i` pairs `o e`, then
`co` pairs `c o` and `ce` pairs `c e`, `po` pairs `p o` and `pe` pairs `p e`, `cp` pairs `c p`. -/
noncomputable def kernel (γs γσ : ℝ) (i co ce po pe cp : ℕ) (o e c p : List ℤ) : ℂ :=
  let o := o.reverse; let e := e.reverse; let c := c.reverse; let p := p.reverse
  contract (vec γs) (vec γσ) (o.take i) (e.take i) *
  contract (vec 1) (vec γs) (c.take co) ((o.drop i).take co) *
  contract (vec 1) (vec γσ) ((c.drop co).take ce) ((e.drop i).take ce) *
  contract vecConj (vec γs) (p.take po) ((o.drop (i + co)).take po) *
  contract vecConj (vec γσ) ((p.drop po).take pe) ((e.drop (i + ce)).take pe) *
  contract (vec 1) vecConj ((c.drop (co + ce)).take cp) ((p.drop (po + pe)).take cp) *
  leftOver ((o.drop (i + co + po)).map (vec γs) ++ (e.drop (i + ce + pe)).map (vec γσ) ++
    (c.drop (co + ce + cp)).map (vec 1) ++ (p.drop (po + pe + cp)).map vecConj)

/-- the covariant amplitude: spins `S1`, `S2` coupled to `S` with projection `δ`, orbital angular momentum `L`, total `J` -/
noncomputable def amplitude (γs γσ : ℝ) (S1 S2 L J : ℕ) (S δ : ℤ) (i co ce po pe cp : ℕ) : ℂ :=
  ((hels S1).map fun o => ((hels S2).map fun e => ((hels L).map fun c => ((hels J).map fun p =>
    (if o.sum + e.sum = δ then ((wave S1 o * wave S2 e * CgBox.Spec.coefficient S S1 o.sum S2 e.sum : ℝ) : ℂ) else 0) *
    ((orbital L c : ℝ) : ℂ) * (if p.sum = δ then ((wave J p : ℝ) : ℂ) else 0) *
    kernel γs γσ i co ce po pe cp o e c p).sum).sum).sum).sum

/-- the numbers of pairs fit the ranks of the tensors, and nothing or one vector each of three tensors is left over -/
def Complete (S1 S2 L J i co ce po pe cp : ℕ) : Prop :=
  ∃ a b c d : ℕ, S1 = i + co + po + a ∧ S2 = i + ce + pe + b ∧ L = co + ce + cp + c ∧ J = po + pe + cp + d ∧
    ((a = 0 ∧ b = 0 ∧ c = 0 ∧ d = 0) ∨ (a ≤ 1 ∧ b ≤ 1 ∧ c ≤ 1 ∧ d ≤ 1 ∧ a + b + c + d = 3))

/-- the phase the program leaves out: `i` for a triple product -/
noncomputable def phase (S1 S2 L J : ℕ) : ℂ := if Even (S1 + S2 + L + J) then 1 else Complex.I

/-- value of a term without indices: square root of the prefactor with its sign, times the Lorentz factors -/
noncomputable def val (γs γσ : ℝ) (t : Term) : ℝ := ssqrt (dval false t.pre) * γs ^ t.gamS.toNat * γσ ^ t.gamSig.toNat

end Rpwa.SpinTensor.Spec
