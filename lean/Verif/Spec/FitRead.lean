import Verif.Model.FitRead
import Verif.Spec.FitCov
/-! # Specification of reading the results of fits (C101) -/
namespace Rpwa.FitRead

open Rpwa.FitCov (Mat pairRow)

variable {K : Type} [Field K] [LinearOrder K] [IsStrictOrderedRing K]

/-- the entries have different mass bins. -/
def Different (tol : K) (ms : List K) : Prop := ms.Pairwise fun a b => tol ≤ |a - b|

/-- all neighbours have the same distance. -/
def Equidistant (tol : K) (cs : List K) : Prop :=
  ∀ (m : ℕ) (a b first last : K), cs[m]? = some a → cs[m + 1]? = some b → cs[0]? = some first → cs[cs.length - 1]? = some last →
    |b - a - (last - first) / ((cs.length - 1 : ℕ) : K)| ≤ tol

/-- mass bin `m` is the first one whose center is the one of the entry. -/
def FirstNear (tol : K) (cs : List K) (x : K) (m : ℕ) : Prop :=
  (∃ c, cs[m]? = some c ∧ |c - x| < tol) ∧ ∀ m' < m, ∀ c : K, cs[m']? = some c → tol ≤ |c - x|

/-- every mass bin has exactly one entry and every entry exactly one mass bin. -/
def Mapped (tol : K) (cs ms : List K) (mp : List ℕ) : Prop :=
  mp.length = cs.length ∧ (∀ m k : ℕ, mp[m]? = some k ↔ ∃ x, ms[k]? = some x ∧ FirstNear tol cs x m) ∧
  ∀ k < ms.length, ∃ m : ℕ, mp[m]? = some k

/-- the files that are accepted, and what is read. -/
def GoodFile (tol : K) (ms cs : List K) (mp : List ℕ) : Prop :=
  ms ≠ [] ∧ Different tol ms ∧ cs.Perm ms ∧ cs.Pairwise (· < ·) ∧ Equidistant tol cs ∧ mp.length = cs.length ∧
    ∀ (m : ℕ) (c : K), cs[m]? = some c → ∃ k : ℕ, mp[m]? = some k ∧ ms[k]? = some c

/-- the whole number of turns that takes `v` closest to `d`, at most one. -/
def ClosestTurn (d v r : K) : Prop := (r = v ∨ r = v + 360 ∨ r = v - 360) ∧ |r - d| ≤ |v - d| ∧ |r - d| ≤ |v + 360 - d| ∧ |r - d| ≤ |v - 360 - d|

/-- smallest and largest element. -/
def Hull (S : Set K) (b : K × K) : Prop := (b.1 ∈ S ∧ ∀ x ∈ S, b.1 ≤ x) ∧ b.2 ∈ S ∧ ∀ x ∈ S, x ≤ b.2

/-- value of the entry of mass bin `m` in a file. -/
def ValueAt (tol : K) (cs : List K) (file : List (K × K)) (m : ℕ) (v : K) : Prop := ∃ x, (x, v) ∈ file ∧ FirstNear tol cs x m

end Rpwa.FitRead
