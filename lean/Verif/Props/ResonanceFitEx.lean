import Verif.Props.ResonanceFitData

/-!
# C42, C43, C50: a concrete model, and what goes wrong outside of the hypotheses
-/

namespace Rpwa.ResFit.Ex

open Spec

/-! ## a model with two bins, two waves that share a coupling, and final-state mass dependence -/

/-- quantum numbers `a`, isobar `x` -/
def wx : Name := ['a', '=', 'x']
/-- quantum numbers `a`, isobar `y` -/
def wy : Name := ['a', '=', 'y']

/-- two bins with three mass bins each, both waves in both bins, phase space `s` -/
noncomputable def inp (s : ℝ) : Input where
  waves := [[wx, wy], [wx, wy]]
  nrMass := [3, 3]
  center := fun _ m => 1 + (m : ℝ)
  phaseSpace := fun _ _ _ => s
  phaseSpaceAt := fun _ _ _ => s

/-- a Breit-Wigner that decays to both waves; one function of one parameter for the final-state mass
dependence -/
noncomputable def cfg : Cfg where
  comps := [⟨['R'], .fixedWidth, [wx, wy]⟩]
  fsmd := .same ⟨1, fun mass p => p.getD 0 0 * mass⟩
  anchors := [(wx, ['R']), (wx, ['R'])]
  useBranchings := true

/-- the channels -/
noncomputable def chs (s : ℝ) : List Channel := ((readChannels (inp s) [wx, wy]).getD [])

/-- the mapping: one coupling, the branching of the first channel is fixed -/
def mps : Maps := ⟨[0, 0], [0, 1], 1, [0], 2, [0, 1], [true, false]⟩

theorem read (s : ℝ) : ∃ G, readModel (inp s) cfg = some
    ⟨[⟨0, ['R'], chs s, mps, G, .fixedWidth⟩],
     some ⟨1, true, [⟨1, fun mass p => p.getD 0 0 * mass⟩, ⟨1, fun mass p => p.getD 0 0 * mass⟩],
       [0, 0], G⟩, inp s, [0, 0], [0, 0]⟩ := by
  obtain ⟨G, hG, _⟩ := massBinGroups_spec (inp s)
  refine ⟨G, ?_⟩
  have h1 : readChannels (inp s) [wx, wy] = some (chs s) := rfl
  have h2 : mkMaps true ((chs s).map fun ch => (ch.waveName, ch.bins)) = some mps := by
    have : ((chs s).map fun ch => (ch.waveName, ch.bins)) = [(wx, [0, 1]), (wy, [0, 1])] := rfl
    rw [this]
    decide +kernel
  have h3 : readComponents (inp s) true cfg.comps
      = some [⟨0, ['R'], chs s, mps, G, .fixedWidth⟩] := by
    have : mkComponent (inp s) true 0 ['R'] .fixedWidth [wx, wy]
        = some ⟨0, ['R'], chs s, mps, G, .fixedWidth⟩ := by
      unfold mkComponent
      rw [h1, Option.bind_some, h2, Option.bind_some]
      unfold Shape.sharesBins
      rw [if_pos rfl, hG]
      rfl
    unfold readComponents
    change List.foldlM _ [] [_] = _
    rw [List.foldlM_cons]
    dsimp only [List.length_nil]
    rw [this]
    rfl
  have h4 : readFsmd (inp s) 1 cfg.fsmd
      = some (some ⟨1, true, [⟨1, fun mass p => p.getD 0 0 * mass⟩,
          ⟨1, fun mass p => p.getD 0 0 * mass⟩], [0, 0], G⟩) := by
    change (mkFsmdSame (inp s) 1 _).map some = _
    unfold mkFsmdSame
    rw [hG]
    rfl
  unfold readModel
  rw [if_neg (by
    rintro (h | h | h | h)
    · exact absurd h (by change ¬ (2 = 0); decide)
    · exact h rfl
    · exact h rfl
    · exact absurd h (by
        have : wavesUnique (inp s) = true := by
          change ([[wx, wy], [wx, wy]].all fun ws => decide ws.Nodup) = true
          decide +kernel
        rw [this]; decide))]
  rw [show cfg.useBranchings = true from rfl, h3, Option.bind_some]
  change (readFsmd (inp s) 1 cfg.fsmd).bind _ = _
  rw [h4, Option.bind_some]
  rfl

/-- groups of bins with the same mass binning -/
noncomputable def grp (s : ℝ) : List (List ℕ) := (read s).choose

/-- the model -/
noncomputable def mdl (s : ℝ) : Model :=
  ⟨[⟨0, ['R'], chs s, mps, grp s, .fixedWidth⟩],
     some ⟨1, true, [⟨1, fun mass p => p.getD 0 0 * mass⟩, ⟨1, fun mass p => p.getD 0 0 * mass⟩],
       [0, 0], grp s⟩, inp s, [0, 0], [0, 0]⟩

theorem read_mdl (s : ℝ) : readModel (inp s) cfg = some (mdl s) := (read s).choose_spec

/-- data with the mass limits `lims` -/
noncomputable def dat (s : ℝ) (lims : ℕ → ℕ → ℝ × ℝ) : Data where
  limits := pairLimits (inp s) lims
  rho := fun _ _ _ _ => 0
  rhoCovInv := fun _ _ _ _ _ _ => 1
  amps := fun _ _ _ => 0
  ampsCovInv := fun _ _ _ _ => 1
  useCov := .diagonalOnly

/-- hypotheses of C42: a function object the program can build -/
theorem built (s : ℝ) (lims : ℕ → ℕ → ℝ × ℝ) (pa : Bool) :
    Built (inp s) cfg lims ⟨mdl s, dat s lims, pa⟩ := by
  refine ⟨read_mdl s, fun _ _ _ => rfl, ?_⟩
  intro b hb
  have hb : b < 2 := hb
  rcases b with _ | _ | b
  · exact Nat.zero_lt_succ 2
  · exact Nat.zero_lt_succ 2
  · omega

/-- hypotheses of C43 -/
theorem sameBins (s : ℝ) : CfgSameBins (inp s) cfg := by
  intro _ cc hcc w hw w' hw' _ b hb
  have hb : b < 2 := hb
  have hcc : cc = ⟨['R'], .fixedWidth, [wx, wy]⟩ := by
    have : cc ∈ [(⟨['R'], .fixedWidth, [wx, wy]⟩ : CompCfg)] := hcc
    simpa using this
  subst hcc
  have key : ∀ v ∈ [wx, wy], v ∈ (inp s).wavesOf b := by
    intro v hv
    rcases b with _ | _ | b
    · exact hv
    · exact hv
    · omega
  exact iff_of_true (key w hw) (key w' hw')

theorem coupBins0 (s : ℝ) : (⟨0, ['R'], chs s, mps, grp s, .fixedWidth⟩ : Component).coupBins 0
    = [0, 1] := rfl

/-- the parameters: coupling in two bins, one branching, two shape parameters, one parameter of the
final-state mass dependence -/
theorem layout0 (s : ℝ) : layout (mdl s) =
    [.coupRe 0 0 0, .coupIm 0 0 0, .coupRe 0 0 1, .coupIm 0 0 1, .brRe 0 1, .brIm 0 1,
     .par 0 0, .par 0 1, .par 1 0] := by
  have h1 : coupEntries ⟨0, ['R'], chs s, mps, grp s, .fixedWidth⟩
      = [.coupRe 0 0 0, .coupIm 0 0 0, .coupRe 0 0 1, .coupIm 0 0 1] := by
    unfold coupEntries
    change List.flatMap _ [0] = _
    rw [List.flatMap_cons, coupBins0]
    rfl
  unfold layout
  change List.flatMap coupEntries [_] ++ _ ++ _ ++ _ = _
  rw [List.flatMap_cons, h1]
  rfl

/-- C42 for this model -/
example (s : ℝ) (lims : ℕ → ℕ → ℝ × ℝ) (p q : ℕ → ℝ) :
    ∃ st, after ⟨mdl s, dat s lims, false⟩ St.empty [p, q, p] = some st ∧
      (Fn.chiSquare ⟨mdl s, dat s lims, false⟩ st q).map (fun r => r.1)
        = some (chi2 ⟨mdl s, dat s lims, false⟩ q) :=
  chiSquare_history (built s lims false) (Or.inr fun h => by cases h) [p, q, p] q

/-! ## number of data points of waves with separate mass ranges -/

/-- the first wave is used in the first, the second wave in the last mass bin -/
noncomputable def sep : ℕ → ℕ → ℝ × ℝ := fun _ w => if w = 0 then (-1, 1) else (3, -1)

theorem sep_limits {b : ℕ} (hb : b < 2) (i j : ℕ) (s : ℝ) : pairLimits (inp s) sep b i j
    = (if i = 0 ∧ j = 0 then 0 else 2, if i = 0 ∨ j = 0 then 0 else 2) := by
  have hn : (inp s).nrMassOf b = 3 := by
    rcases b with _ | _ | b
    · rfl
    · rfl
    · omega
  have h0 : waveLimits 3 ((inp s).center b) (-1, 1) = (0, 0) := by
    unfold waveLimits inp
    simp only [List.range_succ, List.range_zero, List.nil_append, List.foldl_append, List.foldl_cons,
      List.foldl_nil]
    norm_num
  have h1 : waveLimits 3 ((inp s).center b) (3, -1) = (2, 2) := by
    unfold waveLimits inp
    simp only [List.range_succ, List.range_zero, List.nil_append, List.foldl_append, List.foldl_cons,
      List.foldl_nil]
    norm_num
  unfold pairLimits
  rw [hn]
  have hs : ∀ w, waveLimits 3 ((inp s).center b) (sep b w) = if w = 0 then (0, 0) else (2, 2) := by
    intro w
    unfold sep
    split
    · exact h0
    · exact h1
  rw [hs, hs]
  by_cases hi : i = 0 <;> by_cases hj : j = 0 <;> simp [hi, hj]

/-- **C50, finding.** Mass ranges of two waves of a bin that are separated by a gap: the unsigned
arithmetic of the program gives 0 data points, although 4 numbers are compared. -/
theorem dataPoints_gap (s : ℝ) : (Fn.mk (mdl s) (dat s sep) false).nrDataPoints = 0 ∧
    dataPoints ⟨mdl s, dat s sep, false⟩ = 4 := by
  classical
  have hl : ∀ b < 2, ∀ i j, (dat s sep).limits b i j
      = (if i = 0 ∧ j = 0 then 0 else 2, if i = 0 ∨ j = 0 then 0 else 2) :=
    fun b hb i j => sep_limits hb i j s
  constructor
  · unfold Fn.nrDataPoints
    have h1 : (Fn.mk (mdl s) (dat s sep) false).M.input.nrBins = 2 := rfl
    have h2 : ∀ b < 2, (Fn.mk (mdl s) (dat s sep) false).nrWaves b = 2 := by
      intro b hb
      rcases b with _ | _ | b
      · rfl
      · rfl
      · omega
    rw [h1]
    simp only [List.range_succ, List.range_zero, List.nil_append, List.foldl_append,
      List.foldl_cons, List.foldl_nil, h2 0 (by omega), h2 1 (by omega), hl 0 (by omega),
      hl 1 (by omega), Bool.false_eq_true, if_false, spanOf]
    simp
    ring
  · unfold dataPoints
    have h1 : (Fn.mk (mdl s) (dat s sep) false).M.input.nrBins = 2 := rfl
    have h2 : ∀ b < 2, (Fn.mk (mdl s) (dat s sep) false).nrWaves b = 2 := by
      intro b hb
      rcases b with _ | _ | b
      · rfl
      · rfl
      · omega
    have h3 : ∀ b < 2, (Fn.mk (mdl s) (dat s sep) false).M.input.nrMassOf b = 3 := by
      intro b hb
      rcases b with _ | _ | b
      · rfl
      · rfl
      · omega
    have hin : ∀ b < 2, ∀ m i j, inLimits (Fn.mk (mdl s) (dat s sep) false).D b m i j ↔
        (if i = 0 ∧ j = 0 then 0 else 2) ≤ m ∧ m ≤ (if i = 0 ∨ j = 0 then 0 else 2) := by
      intro b hb m i j
      unfold inLimits
      rw [hl b hb]
    rw [h1]
    simp only [Finset.sum_range_succ, Finset.sum_range_zero, h2 0 (by omega), h2 1 (by omega),
      h3 0 (by omega), h3 1 (by omega), hin 0 (by omega), hin 1 (by omega), Bool.false_eq_true,
      if_false]
    simp

/-- the hypothesis of `nrDataPoints_spec` holds without mass limits -/
theorem nolimits_overlap (s : ℝ) (b i j : ℕ) :
    ((dat s fun _ _ => (-1, -1)).limits b i j).1 ≤ ((dat s fun _ _ => (-1, -1)).limits b i j).2 + 1 := by
  change (pairLimits (inp s) (fun _ _ => (-1, -1)) b i j).1
    ≤ (pairLimits (inp s) (fun _ _ => (-1, -1)) b i j).2 + 1
  unfold pairLimits waveLimits
  norm_num

/-! ## two function objects in one thread -/

/-- one bin, one mass bin, one wave, phase space `s` -/
noncomputable def inp1 (s : ℝ) : Input where
  waves := [[wx]]
  nrMass := [1]
  center := fun _ _ => 1
  phaseSpace := fun _ _ _ => s
  phaseSpaceAt := fun _ _ _ => s

/-- a constant amplitude -/
noncomputable def cfg1 : Cfg := ⟨[⟨['C'], .constant, [wx]⟩], .absent, [(wx, ['C'])], false⟩

/-- the channels -/
noncomputable def chs1 (s : ℝ) : List Channel := ((readChannels (inp1 s) [wx]).getD [])

/-- the mapping -/
def mps1 : Maps := ⟨[0], [0], 1, [0], 1, [0], [true]⟩

theorem read1 (s : ℝ) : ∃ G, readModel (inp1 s) cfg1 = some
    ⟨[⟨0, ['C'], chs1 s, mps1, G, .constant⟩], none, inp1 s, [0], [0]⟩ := by
  obtain ⟨G, hG, _⟩ := massBinGroups_spec (inp1 s)
  refine ⟨G, ?_⟩
  have h1 : readChannels (inp1 s) [wx] = some (chs1 s) := rfl
  have h2 : mkMaps false ((chs1 s).map fun ch => (ch.waveName, ch.bins)) = some mps1 := by
    have : ((chs1 s).map fun ch => (ch.waveName, ch.bins)) = [(wx, [0])] := rfl
    rw [this]
    decide +kernel
  have h3 : readComponents (inp1 s) false cfg1.comps
      = some [⟨0, ['C'], chs1 s, mps1, G, .constant⟩] := by
    have : mkComponent (inp1 s) false 0 ['C'] .constant [wx]
        = some ⟨0, ['C'], chs1 s, mps1, G, .constant⟩ := by
      unfold mkComponent
      rw [h1, Option.bind_some, h2, Option.bind_some]
      unfold Shape.sharesBins
      rw [if_pos rfl, hG]
      rfl
    unfold readComponents
    change List.foldlM _ [] [_] = _
    rw [List.foldlM_cons]
    dsimp only [List.length_nil]
    rw [this]
    rfl
  unfold readModel
  rw [if_neg (by
    rintro (h | h | h | h)
    · exact absurd h (by change ¬ (1 = 0); decide)
    · exact h rfl
    · exact h rfl
    · exact absurd h (by
        have : wavesUnique (inp1 s) = true := by
          change ([[wx]].all fun ws => decide ws.Nodup) = true
          decide +kernel
        rw [this]; decide))]
  rw [show cfg1.useBranchings = false from rfl, h3, Option.bind_some]
  rfl

/-- the model -/
noncomputable def mdl1 (s : ℝ) : Model :=
  ⟨[⟨0, ['C'], chs1 s, mps1, (read1 s).choose, .constant⟩], none, inp1 s, [0], [0]⟩

theorem read_mdl1 (s : ℝ) : readModel (inp1 s) cfg1 = some (mdl1 s) := (read1 s).choose_spec

/-- data: spin-density matrix element 0 with weight 1 -/
noncomputable def fn1 (s : ℝ) : Fn :=
  ⟨mdl1 s, ⟨pairLimits (inp1 s) fun _ _ => (-1, -1), fun _ _ _ _ => 0, fun _ _ _ _ _ _ => 1,
    fun _ _ _ => 0, fun _ _ _ _ => 1, .diagonalOnly⟩, false⟩

theorem built1 (s : ℝ) : Built (inp1 s) cfg1 (fun _ _ => (-1, -1)) (fn1 s) := by
  refine ⟨read_mdl1 s, fun _ _ _ => rfl, ?_⟩
  intro b hb
  have hb : b < 1 := hb
  rcases b with _ | b
  · exact Nat.zero_lt_succ 0
  · omega

theorem limits1 (s : ℝ) : pairLimits (inp1 s) (fun _ _ => (-1, -1)) 0 0 0 = (0, 0) := by
  unfold pairLimits waveLimits
  have : (inp1 s).nrMassOf 0 = 1 := rfl
  rw [this]
  norm_num

theorem layout1 (s : ℝ) : layout (mdl1 s) = [.coupRe 0 0 0, .coupIm 0 0 0] := rfl

theorem coup1 (s : ℝ) (par : ℕ → ℝ) : (paramsOf (mdl1 s) par).coup 0 0 0 = ⟨par 0, par 1⟩ := by
  unfold paramsOf valueOf
  rw [layout1]
  have h0 : ([.coupRe 0 0 0, .coupIm 0 0 0] : List Entry).idxOf (.coupRe 0 0 0) = 0 := by decide
  have h1 : ([.coupRe 0 0 0, .coupIm 0 0 0] : List Entry).idxOf (.coupIm 0 0 0) = 1 := by decide
  dsimp only
  rw [if_pos (by simp), if_pos (by simp), h0, h1]

theorem br1 (s : ℝ) (par : ℕ → ℝ) : (paramsOf (mdl1 s) par).br 0 0 = 1 := by
  unfold paramsOf valueOf
  rw [layout1]
  simp only [List.mem_cons, reduceCtorEq, List.not_mem_nil, or_self, if_false]
  rw [if_pos ⟨_, List.mem_cons_self, 0, by change 0 < 1; omega, rfl, rfl⟩, if_neg]
  · rfl
  · rintro ⟨_, _, _, _, _, h⟩; cases h

/-- the amplitude is coupling times phase space -/
theorem amp1 (s : ℝ) (par : ℕ → ℝ) :
    ampAt (mdl1 s) (paramsOf (mdl1 s) par) 0 0 0 = ⟨par 0, par 1⟩ * (s : ℂ) := by
  have hc := coup1 s par
  have hb := br1 s par
  unfold ampAt amp fsmdFactor
  change (List.map _ [_]).sum * 1 = _
  rw [List.map_singleton, List.sum_singleton, mul_one]
  change (∑ ch ∈ Finset.range 1, _) = _
  rw [Finset.sum_range_one]
  rw [if_pos (by rfl)]
  unfold channelTerm
  change 1 * ((paramsOf (mdl1 s) par).coup 0 0 0 * (paramsOf (mdl1 s) par).br 0 0 * (s : ℂ)) = _
  rw [hc, hb]
  ring

/-- evaluation of the only element of the spin-density matrix -/
theorem chiSquareRho1 (s : ℝ) (P : Params) (K : Cache) :
    (fn1 s).chiSquareRho P K
      = let r := (mdl1 s).spinDensityMatrix P K 0 0 0 1 (some 0)
        some (0 + (r.1 - 0).re * 1 * (r.1 - 0).re, r.2) := by
  have hm : (fn1 s).massBins 0 = [0] := by
    unfold Fn.massBins Fn.massRange
    change (let r := [0].foldl (fun (r : ℕ × ℕ) w =>
      (min r.1 ((pairLimits (inp1 s) (fun _ _ => (-1, -1)) 0 w w).1),
        max r.2 ((pairLimits (inp1 s) (fun _ _ => (-1, -1)) 0 w w).2))) (1, 0)
      List.range' r.1 (r.2 + 1 - r.1)) = [0]
    rw [List.foldl_cons, List.foldl_nil, limits1]
    rfl
  unfold Fn.chiSquareRho
  change List.foldlM _ (0, K) [0] = _
  rw [List.foldlM_cons, hm]
  change (List.foldlM _ (0, K) [0] >>= _) = _
  rw [List.foldlM_cons]
  change ((List.foldlM _ (0, K) [0] >>= _) >>= _) = _
  rw [List.foldlM_cons]
  change (((List.foldlM _ (0, K) [0] >>= _) >>= _) >>= _) = _
  rw [List.foldlM_cons]
  have hlim : (fn1 s).D.limits 0 0 0 = (0, 0) := limits1 s
  rw [hlim]
  rfl

/-- after an import the coupling is stored, and nothing is changed by importing the same array again
into a model with the same parameters -/
theorem import1 (s : ℝ) (par : ℕ → ℝ) (st : St) :
    (st.P.coup 0 0 0 = ⟨par 0, par 1⟩) → (st.P.br 0 0 = 1) →
      ((mdl1 s).importAll par st).2 = st := by
  intro h1 h2
  have hcoup : coupStep ⟨0, ['C'], chs1 s, mps1, (read1 s).choose, .constant⟩ (fun i => par (0 + i)) 0
      (0, st) 0 = (2, st) := by
    unfold coupStep
    dsimp only
    rw [if_pos (by rw [h1])]
  have hbr : brStep ⟨0, ['C'], chs1 s, mps1, (read1 s).choose, .constant⟩ (fun i => par (2 + i))
      (0, st) 0 = (0, st) := by
    unfold brStep
    dsimp only
    have : mps1.brFixed.getD 0 false = true := rfl
    rw [this, if_pos rfl, if_pos rfl, if_pos (by rw [h2]; rfl)]
  have e1 : importLoop importCouplings (mdl1 s).comps par (0, st) = (2, st) := by
    have : importCouplings ⟨0, ['C'], chs1 s, mps1, (read1 s).choose, .constant⟩
        (fun i => par (0 + i)) st = (2, st) := hcoup
    change (0 + (importCouplings ⟨0, ['C'], chs1 s, mps1, (read1 s).choose, .constant⟩
        (fun i => par (0 + i)) st).1, (importCouplings ⟨0, ['C'], chs1 s, mps1, (read1 s).choose,
        .constant⟩ (fun i => par (0 + i)) st).2) = (2, st)
    rw [this]
    rfl
  have e2 : importLoop importBranchings (mdl1 s).comps par (2, st) = (2, st) := by
    have : importBranchings ⟨0, ['C'], chs1 s, mps1, (read1 s).choose, .constant⟩
        (fun i => par (2 + i)) st = (0, st) := hbr
    change (2 + (importBranchings ⟨0, ['C'], chs1 s, mps1, (read1 s).choose, .constant⟩
        (fun i => par (2 + i)) st).1, (importBranchings ⟨0, ['C'], chs1 s, mps1, (read1 s).choose,
        .constant⟩ (fun i => par (2 + i)) st).2) = (2, st)
    rw [this]
    rfl
  have e3 : importLoop importParameters (mdl1 s).comps par (2, st) = (2, st) := rfl
  unfold Model.importAll
  dsimp only
  rw [e1, e2, e3]
  rfl

/-- a production amplitude that was evaluated is in the cache -/
theorem amp_stored (M : Model) (P : Params) (K : Cache) (w b : ℕ) (mass : ℝ) (m : ℕ) :
    (M.productionAmplitude P K w b mass (some m)).2.amp w b m
      = (M.productionAmplitude P K w b mass (some m)).1 := by
  unfold Model.productionAmplitude
  dsimp only
  split
  · rfl
  · simp [Cache.setAmp, hits]

/-- one element of the spin-density matrix, from a valid cache -/
theorem rho1 (s : ℝ) {P : Params} {K : Cache} (h : Inv (mdl1 s) P K) :
    ((mdl1 s).spinDensityMatrix P K 0 0 0 1 (some 0)).1
        = ampAt (mdl1 s) P 0 0 0 * star (ampAt (mdl1 s) P 0 0 0) ∧
      ((mdl1 s).spinDensityMatrix P K 0 0 0 1 (some 0)).2.amp 0 0 0 = ampAt (mdl1 s) P 0 0 0 := by
  have wf := (readModel_ok (read_mdl1 s)).wf
  have hb : 0 < (mdl1 s).input.nrBins := Nat.zero_lt_succ 0
  have hw : 0 < ((mdl1 s).input.wavesOf 0).length := Nat.zero_lt_succ 0
  have hm : 0 < (mdl1 s).input.nrMassOf 0 := Nat.zero_lt_succ 0
  obtain ⟨a, ha⟩ := productionAmplitude_spec (w := 0) (b := 0) (m := 0) wf hb hw hm h
  obtain ⟨c, _⟩ := productionAmplitude_spec (w := 0) (b := 0) (m := 0) wf hb hw hm ha
  refine ⟨?_, ?_⟩
  · rw [← a]
    refine congrArg₂ (· * ·) rfl (congrArg star ?_)
    exact c.trans a.symm
  · exact (amp_stored _ _ _ _ _ _ _).trans c

/-- the state after the first evaluation of `fn1 s` -/
theorem eval1 (s : ℝ) (par : ℕ → ℝ) :
    ∃ st, (fn1 s).chiSquare St.empty par = some (Complex.normSq (⟨par 0, par 1⟩ * (s : ℂ)) ^ 2, st) ∧
      st.P.coup 0 0 0 = ⟨par 0, par 1⟩ ∧ st.P.br 0 0 = 1 ∧
      st.K.amp 0 0 0 = ⟨par 0, par 1⟩ * (s : ℂ) := by
  have wf := (readModel_ok (read_mdl1 s)).wf
  have hpar := importAll_params wf (fun f hf => by cases hf) par
    St.empty (good_empty (fn1 s)).rest
  have hinv := importAll_inv wf (fun f hf => by cases hf) par
    St.empty (good_empty (fn1 s)).inv
  obtain ⟨r1, r2⟩ := rho1 s hinv
  have h1 := amp1 s par
  rw [← hpar] at h1
  rw [h1] at r1 r2
  refine ⟨⟨((mdl1 s).importAll par St.empty).2.P, ((mdl1 s).spinDensityMatrix
    ((mdl1 s).importAll par St.empty).2.P ((mdl1 s).importAll par St.empty).2.K 0 0 0 1
    (some 0)).2⟩, ?_, ?_, ?_, r2⟩
  · have e := chiSquareRho1 s ((mdl1 s).importAll par St.empty).2.P
      ((mdl1 s).importAll par St.empty).2.K
    dsimp only at e
    unfold Fn.chiSquare
    dsimp only
    rw [if_neg (by change ¬ (false = true); decide)]
    refine (congrArg (Option.map _) e).trans ?_
    rw [Option.map_some]
    refine congrArg some (Prod.ext ?_ rfl)
    dsimp only
    rw [r1]
    simp only [sub_zero, mul_one, zero_add]
    rw [show (⟨par 0, par 1⟩ * (s : ℂ)) * star (⟨par 0, par 1⟩ * (s : ℂ))
      = ((Complex.normSq (⟨par 0, par 1⟩ * (s : ℂ)) : ℝ) : ℂ) from Complex.mul_conj _,
      Complex.ofReal_re]
    ring
  · rw [show ((mdl1 s).importAll par St.empty).2.P = paramsOf (mdl1 s) par from hpar]
    exact coup1 s par
  · rw [show ((mdl1 s).importAll par St.empty).2.P = paramsOf (mdl1 s) par from hpar]
    exact br1 s par

/-- **C42, finding.** The stored parameters and the cache belong to the thread and not to the function
object.  Two function objects `fn1 1`, `fn1 2` (their phase-space integrals are 1 and 2), the first one
is evaluated before: the second one returns the chi-square of the first one, 1, instead of its own, 16. -/
theorem shared_cache : ∃ st v, (fn1 1).chiSquare St.empty (fun i => if i = 0 then 1 else 0)
      = some (v, st) ∧
    ((fn1 2).chiSquare st (fun i => if i = 0 then 1 else 0)).map (fun r => r.1) = some 1 ∧
    chi2 (fn1 2) (fun i => if i = 0 then 1 else 0) = 16 := by
  obtain ⟨st, e, hc, hb, ha⟩ := eval1 1 (fun i => if i = 0 then 1 else 0)
  refine ⟨st, _, e, ?_, ?_⟩
  · have hi := import1 2 (fun i => if i = 0 then 1 else 0) st hc hb
    have ha : st.K.amp 0 0 0 = 1 := by
      rw [ha]
      apply Complex.ext <;> simp
    have hv : ((mdl1 2).spinDensityMatrix st.P st.K 0 0 0 1 (some 0)).1 = 1 := by
      unfold Model.spinDensityMatrix Model.productionAmplitude
      dsimp only
      rw [if_pos (by rw [ha]; exact one_ne_zero)]
      dsimp only
      rw [if_pos (by rw [ha]; exact one_ne_zero)]
      dsimp only
      rw [ha]
      simp
    have e := chiSquareRho1 2 st.P st.K
    dsimp only at e
    rw [hv] at e
    have hs : ∀ s', s' = st → Option.map (fun (r : ℝ × St) => r.1)
        (Option.map (fun (r : ℝ × Cache) => (r.1, (⟨s'.P, r.2⟩ : St)))
          ((fn1 2).chiSquareRho s'.P s'.K)) = some 1 := by
      rintro _ rfl
      rw [e]
      simp
    unfold Fn.chiSquare
    dsimp only
    rw [if_neg (by change ¬ (false = true); decide)]
    exact hs _ hi
  · obtain ⟨st2, e2, _⟩ := eval1 2 (fun i => if i = 0 then 1 else 0)
    obtain ⟨st3, e3, h3⟩ := chiSquare_history (built1 2) (Or.inr fun h => by cases h) []
      (fun i => if i = 0 then 1 else 0)
    cases e3
    rw [e2] at h3
    have h3 := Option.some.inj h3
    rw [← h3]
    dsimp only
    rw [Complex.normSq_mul, Complex.normSq_ofReal]
    simp [Complex.normSq_apply]
    norm_num

/-! ## a lost coupling -/

/-- **C43, finding.** Two waves with the same quantum numbers in one component with branchings, `wy` in
bins 0 and 1, `wx` in bin 1 only and listed first: `wy` gets the coupling of `wx` (`chanCoup = [0, 0]`),
whose master channel `fromCoup = [0]` does not exist in bin 0. -/
theorem coupling_lost :
    mkMaps true [(wx, [1]), (wy, [0, 1])] = some ⟨[0, 0], [0, 1], 1, [0], 2, [0, 1], [true, false]⟩ := by
  decide +kernel

/-- if `wx` is in bin 0 only, the program ends with a failed assertion -/
theorem coupling_abort : mkMaps true [(wx, [0]), (wy, [0, 1])] = none := by
  decide +kernel

end Rpwa.ResFit.Ex
