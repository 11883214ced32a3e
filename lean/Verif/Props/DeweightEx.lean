import Verif.Props.DeweightProb
import Mathlib.Tactic.IntervalCases
/-!
# De-weighting of Monte Carlo events (C93): a concrete case -/
namespace Rpwa.Deweight.Ex

open Rpwa.Storage MeasureTheory

/-- a `double`. -/
def dbl (n : ℕ) : Dbl := fun i => if i = 0 then UInt8.ofNat n else 0

/-- the number it stands for (in the example). -/
noncomputable def val (d : Dbl) : ℝ := ((d 0).toNat : ℝ)

def vec : Vec3 := ⟨dbl 1, dbl 2, dbl 3⟩

def row (n : ℕ) : Row := ⟨[vec], [vec, vec], [dbl 7, dbl n]⟩

def tree : Tree := ⟨["t", "weight"], [row 1, row 4, row 0]⟩

noncomputable def em : EventMeta := { EventMeta.default with prodNames := ["pi-"], decayNames := ["pi-", "pi0"], addNames := ["t", "weight"], eventsType := .generated, tree := some tree }

theorem weighted : Weighted em tree 1 := by
  refine ⟨⟨rfl, rfl, ?_⟩, ?_, rfl, ?_⟩
  · intro r hr
    simp only [tree, List.mem_cons, List.not_mem_nil, or_false] at hr
    rcases hr with rfl | rfl | rfl <;> rfl
  · intro r hr
    simp only [tree, List.mem_cons, List.not_mem_nil, or_false] at hr
    rcases hr with rfl | rfl | rfl <;> exact ⟨rfl, rfl⟩
  · intro i hi
    interval_cases i
    simp [em]

theorem val_dbl (n : ℕ) (h : n < 256) : val (dbl n) = n := by
  unfold val dbl
  simp [Nat.mod_eq_of_lt h]

theorem weights_eq : weights val 1 tree.rows = [1, 4, 0] := by
  show [val (dbl 1), val (dbl 4), val (dbl 0)] = _
  rw [val_dbl 1 (by norm_num), val_dbl 4 (by norm_num), val_dbl 0 (by norm_num)]
  norm_num

theorem max4 : IsMaxWeight (weights val 1 tree.rows) 4 := by
  rw [weights_eq]
  exact ⟨by norm_num, by simp, by simp⟩

/-- with factor 1 the second event is always kept (for random numbers below one), the first one in a quarter of the cases, the third one never: the
expected number of events is 5/4. -/
example (md5 : Hashor → String) : ∫ ω, ((outRows md5 val 1 (seq ω) em).length : ℝ) ∂(uniform 3) = 5 / 4 := by
  have := deWeight_expected_number md5 val (f := 1) weighted max4 (by norm_num) le_rfl (by rw [weights_eq]; simp)
  refine this.trans ?_
  rw [weights_eq]
  norm_num

example : uniform 3 {ω | ω 0 * (4 * 1) < 1} = ENNReal.ofReal (1 / (4 * 1)) :=
  keep_probability_exact 0 max4 (w := 1) (by rw [weights_eq]; simp) (by norm_num) le_rfl (by norm_num)

/-- the file written is valid. -/
example (md5 : Hashor → String) (rnd : ℕ → ℝ) : ∃ m, deWeight md5 val 1 rnd em = .ok (m, true) ∧ m.addNames = ["t"] ∧ m.contentHash = m.recalculateHash md5 := by
  obtain ⟨m, h1, h2⟩ := deWeight_file md5 val 1 rnd weighted max4 (by norm_num)
  refine ⟨m, h1, h2.addNames, h2.hash ?_⟩
  show GoodNames ["t"]
  exact ⟨by simp, by decide⟩

/-- generator options and events. -/
noncomputable def opts : GenOptions := ⟨some ("mass", "tPrime"), "aux", (1, 2), fun _ _ => true⟩

def ev (n : ℕ) : GenEvent := ⟨["pi-"], ["pi-", "pi0"], [vec], [vec, vec], dbl 1, dbl 2, dbl n⟩

theorem sameShape : SameShape ["pi-"] ["pi-", "pi0"] [ev 1, ev 4] := by
  intro e he
  simp only [List.mem_cons, List.not_mem_nil, or_false] at he
  rcases he with rfl | rfl <;> exact ⟨rfl, rfl⟩

/-- generated, interrupted after the first of two events. -/
example (md5 : Hashor → String) : ∃ m, genPseudoData md5 opts [ev 1] = .ok (some m) ∧ m.tree = some ⟨["mass", "tPrime", "weight"], [genRow opts (ev 1)]⟩ := by
  obtain ⟨m, m', h1, h2, rows, h3, h4, h5⟩ := genPseudoData_interrupted md5 opts (ev 1) [ev 4] rfl sameShape 1 one_pos
  obtain ⟨m'', h6, h7⟩ := genPseudoData_file md5 opts (ev 1) [] rfl (fun e he => sameShape e (List.mem_cons.2 (Or.inl (List.mem_singleton.1 he))))
  exact ⟨m'', h6, h7.tree⟩

/-- generated and de-weighted. -/
example (md5 : Hashor → String) (rnd : ℕ → ℝ) : ∃ m m', genPseudoData md5 opts [ev 1, ev 4] = .ok (some m) ∧ deWeight md5 val 2 rnd m = .ok (m', true) ∧ m'.addNames = ["mass", "tPrime"] := by
  obtain ⟨m, m', h1, h2, h3⟩ := generate_deWeight md5 val 2 rnd opts (ev 1) [ev 4] rfl sameShape (by simp [genNames, opts]) (M := 4)
    (by
      show IsMaxWeight [val (dbl 1), val (dbl 4)] 4
      rw [val_dbl 1 (by norm_num), val_dbl 4 (by norm_num)]
      exact ⟨by norm_num, by simp, by simp⟩) (by norm_num)
  exact ⟨m, m', h1, h2, h3.addNames⟩

end Rpwa.Deweight.Ex
