import Verif.Props.SumPlots
/-! # C105: examples -/
namespace Rpwa.ResFit.SumEx

open Ex

/-- two bins of the same structure with the same anchor. -/
theorem sums (s : ℝ) (w : ℕ) : Plots.Job.sum w ∈ (mdl s).plots ↔ w < 2 := by
  rw [sum_iff (read_mdl s)]
  constructor
  · exact fun h => h.2.2.2
  · intro h
    refine ⟨le_refl 2, ⟨?_, ?_, ?_⟩, ?_, h⟩
    · intro b hb
      have : b = 0 ∨ b = 1 := by have : b < 2 := hb; omega
      rcases this with rfl | rfl <;> rfl
    · intro b hb
      have : b = 0 ∨ b = 1 := by have : b < 2 := hb; omega
      rcases this with rfl | rfl <;> rfl
    · intro b _ m _
      rfl
    · intro b hb
      have : b = 0 ∨ b = 1 := by have : b < 2 := hb; omega
      rcases this with rfl | rfl <;> rfl

/-- the final-state mass dependence, one function for both bins, is plotted twice. -/
theorem fsmd_twice (s : ℝ) : Plots.Job.fsmd (some 0) 0 ∈ (mdl s).plots ∧ Plots.Job.fsmd (some 1) 1 ∈ (mdl s).plots ∧
    Plots.Job.fsmd none 0 ∉ (mdl s).plots ∧ ((mdl s).fsmd.map (·.same)) = some true := by
  refine ⟨(fsmd_iff (read_mdl s) _ _).2 ⟨rfl, ?_, ?_⟩, (fsmd_iff (read_mdl s) _ _).2 ⟨rfl, ?_, ?_⟩, fun h => ?_, rfl⟩
  · exact (by decide : 0 < 2)
  · rw [if_neg (show ¬ ((inp s).nrBins = 1) from (by decide : ¬ (2 = 1)))]
  · exact (by decide : 1 < 2)
  · rw [if_neg (show ¬ ((inp s).nrBins = 1) from (by decide : ¬ (2 = 1)))]
  · have := ((fsmd_iff (read_mdl s) _ _).1 h).2.2
    rw [if_neg (show ¬ ((inp s).nrBins = 1) from (by decide : ¬ (2 = 1)))] at this
    cases this

/-- two components with constant amplitudes and the anchors `as`. -/
noncomputable def cfgOf (as : List (Name × Name)) : Cfg where
  comps := [⟨['R'], .constant, [wx, wy]⟩, ⟨['S'], .constant, [wy, wx]⟩]
  fsmd := .absent
  anchors := as
  useBranchings := false

/-- bins with the waves `ws`, three mass bins each. -/
noncomputable def inpOf (ws : List (List Name)) : Input where
  waves := ws
  nrMass := ws.map fun _ => 3
  center := fun _ m => 1 + (m : ℝ)
  phaseSpace := fun _ _ _ => 1
  phaseSpaceAt := fun _ _ _ => 1

def mps2 : Maps := ⟨[0, 1], [0, 0], 2, [0, 1], 1, [0], [true]⟩

/-- the channels -/
noncomputable def chs2 (ws : List (List Name)) (l : List Name) : List Channel := (readChannels (inpOf ws) l).getD []

/-- such a configuration is read if its channels, couplings and anchors are as they should be. -/
theorem readOf (ws : List (List Name)) (as : List (Name × Name)) (iw ic : List ℕ)
    (hb : ws ≠ []) (ha : as.length = ws.length) (hu : (ws.all fun l => decide l.Nodup) = true)
    (h1 : readChannels (inpOf ws) [wx, wy] = some (chs2 ws [wx, wy])) (h2 : readChannels (inpOf ws) [wy, wx] = some (chs2 ws [wy, wx]))
    (h3 : mkMaps false ((chs2 ws [wx, wy]).map fun ch => (ch.waveName, ch.bins)) = some mps2)
    (h4 : mkMaps false ((chs2 ws [wy, wx]).map fun ch => (ch.waveName, ch.bins)) = some mps2)
    (h5 : ∀ G, allWavesUsed (inpOf ws) [⟨0, ['R'], chs2 ws [wx, wy], mps2, G, .constant⟩, ⟨1, ['S'], chs2 ws [wy, wx], mps2, G, .constant⟩] = true)
    (h6 : ∀ G, (as.zipIdx.mapM fun (a : (Name × Name) × ℕ) => findAnchor (inpOf ws)
      [⟨0, ['R'], chs2 ws [wx, wy], mps2, G, .constant⟩, ⟨1, ['S'], chs2 ws [wy, wx], mps2, G, .constant⟩] a.2 a.1) = some (iw.zip ic))
    (h7 : (iw.zip ic).map (·.1) = iw ∧ (iw.zip ic).map (·.2) = ic) :
    ∃ G, readModel (inpOf ws) (cfgOf as) = some
      ⟨[⟨0, ['R'], chs2 ws [wx, wy], mps2, G, .constant⟩, ⟨1, ['S'], chs2 ws [wy, wx], mps2, G, .constant⟩], none, inpOf ws, iw, ic⟩ := by
  obtain ⟨G, hG, _⟩ := massBinGroups_spec (inpOf ws)
  refine ⟨G, ?_⟩
  have hc1 : mkComponent (inpOf ws) false 0 ['R'] .constant [wx, wy] = some ⟨0, ['R'], chs2 ws [wx, wy], mps2, G, .constant⟩ := by
    unfold mkComponent
    rw [h1, Option.bind_some, h3, Option.bind_some]
    unfold Shape.sharesBins
    rw [if_pos rfl, hG]
    rfl
  have hc2 : mkComponent (inpOf ws) false 1 ['S'] .constant [wy, wx] = some ⟨1, ['S'], chs2 ws [wy, wx], mps2, G, .constant⟩ := by
    unfold mkComponent
    rw [h2, Option.bind_some, h4, Option.bind_some]
    unfold Shape.sharesBins
    rw [if_pos rfl, hG]
    rfl
  have hcs : readComponents (inpOf ws) false (cfgOf as).comps =
      some [⟨0, ['R'], chs2 ws [wx, wy], mps2, G, .constant⟩, ⟨1, ['S'], chs2 ws [wy, wx], mps2, G, .constant⟩] := by
    unfold readComponents
    change List.foldlM _ [] [_, _] = _
    rw [List.foldlM_cons]
    dsimp only [List.length_nil]
    rw [hc1]
    rw [Option.bind_some]
    dsimp only
    rw [if_neg (by simp), Option.bind_eq_bind, Option.bind_some, List.foldlM_cons]
    dsimp only
    simp only [List.nil_append, List.length_cons, List.length_nil, Nat.zero_add]
    rw [hc2]
    rfl
  unfold readModel
  rw [if_neg (by
    rintro (h | h | h | h)
    · exact hb (List.length_eq_zero_iff.1 ((List.length_map _).symm.trans h))
    · exact h (List.length_map _).symm
    · exact h (ha.trans (List.length_map _).symm)
    · exact absurd h (by rw [show wavesUnique (inpOf ws) = true from hu]; decide))]
  rw [show (cfgOf as).useBranchings = false from rfl, hcs, Option.bind_some]
  change (some none).bind _ = _
  rw [Option.bind_some, if_neg (by rw [h5 G]; decide), show (cfgOf as).anchors = as from rfl, h6 G, Option.map_some, h7.1, h7.2]

/-- bins of the same structure with different anchors: no sums. -/
theorem other_anchor : ∃ M, readModel (inpOf [[wx, wy], [wx, wy]]) (cfgOf [(wx, ['R']), (wy, ['S'])]) = some M ∧
    SameStructure (inpOf [[wx, wy], [wx, wy]]) ∧ ∀ w, Plots.Job.sum w ∉ M.plots := by
  obtain ⟨G, h⟩ := readOf [[wx, wy], [wx, wy]] [(wx, ['R']), (wy, ['S'])] [0, 1] [0, 1] (by simp) rfl (by decide +kernel) rfl rfl
    (by have : ((chs2 [[wx, wy], [wx, wy]] [wx, wy]).map fun ch => (ch.waveName, ch.bins)) = [(wx, [0, 1]), (wy, [0, 1])] := rfl
        rw [this]; decide +kernel)
    (by have : ((chs2 [[wx, wy], [wx, wy]] [wy, wx]).map fun ch => (ch.waveName, ch.bins)) = [(wy, [0, 1]), (wx, [0, 1])] := rfl
        rw [this]; decide +kernel)
    (fun G => rfl) (fun G => rfl) ⟨rfl, rfl⟩
  refine ⟨_, h, ⟨?_, ?_, fun b _ m _ => rfl⟩, fun w hw => ?_⟩
  · intro b hb
    have : b = 0 ∨ b = 1 := by have : b < 2 := hb; omega
    rcases this with rfl | rfl <;> rfl
  · intro b hb
    have : b = 0 ∨ b = 1 := by have : b < 2 := hb; omega
    rcases this with rfl | rfl <;> rfl
  · have := ((sum_iff h w).1 hw).2.2.1 1 (by decide : 1 < 2)
    exact absurd (congrArg (Option.map Prod.fst) this) (by change ¬ (some wy = some wx); decide +kernel)

/-- a bin with fewer waves: the mapping is found to be equal in all bins, the structure is not. -/
theorem fewer_waves : ∃ M, readModel (inpOf [[wx, wy], [wx]]) (cfgOf [(wx, ['R']), (wx, ['R'])]) = some M ∧
    M.mappingEqual = true ∧ ¬ SameStructure (inpOf [[wx, wy], [wx]]) ∧ ∀ w, Plots.Job.sum w ∉ M.plots := by
  obtain ⟨G, h⟩ := readOf [[wx, wy], [wx]] [(wx, ['R']), (wx, ['R'])] [0, 0] [0, 0] (by simp) rfl (by decide +kernel) rfl rfl
    (by have : ((chs2 [[wx, wy], [wx]] [wx, wy]).map fun ch => (ch.waveName, ch.bins)) = [(wx, [0, 1]), (wy, [0])] := rfl
        rw [this]; decide +kernel)
    (by have : ((chs2 [[wx, wy], [wx]] [wy, wx]).map fun ch => (ch.waveName, ch.bins)) = [(wy, [0]), (wx, [0, 1])] := rfl
        rw [this]; decide +kernel)
    (fun G => rfl) (fun G => rfl) ⟨rfl, rfl⟩
  have hn : ¬ SameStructure (inpOf [[wx, wy], [wx]]) := fun hs => by
    have := congrArg List.length (hs.waves 1 (by decide : 1 < 2))
    exact absurd this (by change ¬ (1 = 2); decide)
  exact ⟨_, h, rfl, hn, fun w hw => hn ((sum_iff h w).1 hw).2.1⟩

end Rpwa.ResFit.SumEx
