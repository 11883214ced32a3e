import Verif.Model.SumPlots
import Verif.Props.Plots
import Verif.Props.ResonanceFitEx
/-! # C105: sums over bins are plotted of what is the same in all bins -/
namespace Rpwa.ResFit

/-- all bins have the same waves in the same order and the same mass bins. -/
structure SameStructure (I : Input) : Prop where
  waves : ∀ b < I.nrBins, I.wavesOf b = I.wavesOf 0
  nrMass : ∀ b < I.nrBins, I.nrMassOf b = I.nrMassOf 0
  centers : ∀ b < I.nrBins, ∀ m < I.nrMassOf 0, I.center b m = I.center 0 m

theorem getD_ext {α : Type} (d : α) {l r : List α} (h : l.length = r.length) (he : ∀ i < l.length, l.getD i d = r.getD i d) : l = r := by
  apply List.ext_getElem h
  intro i h1 h2
  have := he i h1
  rwa [List.getD_eq_getElem _ _ h1, List.getD_eq_getElem _ _ h2] at this

theorem equalWaves_iff (I : Input) : equalWaves I = true ↔ ∀ b < I.waves.length, I.wavesOf b = I.wavesOf 0 := by
  unfold equalWaves
  rw [List.all_eq_true]
  constructor
  · intro h b hb
    have := h b (List.mem_range.2 hb)
    rw [Bool.and_eq_true, decide_eq_true_eq, List.all_eq_true] at this
    exact getD_ext [] this.1 fun i hi => of_decide_eq_true (this.2 i (List.mem_range.2 hi))
  · intro h b hb
    rw [h b (List.mem_range.1 hb), Bool.and_eq_true, List.all_eq_true]
    exact ⟨decide_eq_true rfl, fun w _ => decide_eq_true rfl⟩

theorem equalMassBins_iff (I : Input) : equalMassBins I = true ↔
    ∀ b < I.nrBins, I.nrMassOf b = I.nrMassOf 0 ∧ ∀ m < I.nrMassOf 0, I.center b m = I.center 0 m := by
  classical
  unfold equalMassBins
  rw [List.all_eq_true]
  constructor
  · intro h b hb
    have := h b (List.mem_range.2 hb)
    rw [Bool.and_eq_true, decide_eq_true_eq, List.all_eq_true] at this
    exact ⟨this.1, fun m hm => of_decide_eq_true (this.2 m (List.mem_range.2 (this.1 ▸ hm)))⟩
  · intro h b hb
    obtain ⟨h1, h2⟩ := h b (List.mem_range.1 hb)
    rw [Bool.and_eq_true, List.all_eq_true]
    exact ⟨decide_eq_true h1, fun m hm => decide_eq_true (h2 m (h1 ▸ List.mem_range.1 hm))⟩

/-- **C105.** The bins of a fit are taken to have the same structure exactly if they have the same waves in the same order and the same mass bins. -/
theorem equalStructure_iff (I : Input) (h : I.waves.length = I.nrBins) : equalStructure I = true ↔ SameStructure I := by
  unfold equalStructure
  rw [Bool.and_eq_true, equalWaves_iff, equalMassBins_iff, h]
  exact ⟨fun ⟨h1, h2⟩ => ⟨h1, fun b hb => (h2 b hb).1, fun b hb => (h2 b hb).2⟩, fun h' => ⟨h'.waves, fun b hb => ⟨h'.nrMass b hb, h'.centers b hb⟩⟩⟩

theorem readModel_waves {I : Input} {cfg : Cfg} {M : Model} (h : readModel I cfg = some M) : I.waves.length = I.nrBins := by
  unfold readModel at h
  split at h
  · cases h
  · rename_i h0
    simp only [not_or, not_not] at h0
    exact h0.2.1

/-- **C105.** Bins with the same waves have the same components and channels for each of them, whichever bins a component is used in. -/
theorem mapping_same {M : Model} {b b' : ℕ} (h : M.input.wavesOf b = M.input.wavesOf b') (w : ℕ) : M.mapping b w = M.mapping b' w := by
  unfold Model.mapping
  rw [h]

/-- **C105.** The components and channels that are used for a wave of a bin are all those that decay to the wave in this bin. -/
theorem mapping_iff {I : Input} {cfg : Cfg} {M : Model} (h : readModel I cfg = some M) {b w : ℕ} (hb : b < I.nrBins) (hw : w < (I.wavesOf b).length)
    (ic ch : ℕ) : (ic, ch) ∈ M.mapping b w ↔
      ∃ c, M.comps[ic]? = some c ∧ ∃ d, c.channels[ch]? = some d ∧ b ∈ d.bins ∧ d.waveName = (I.wavesOf b)[w] ∧ d.waveAt b = some w := by
  have hr := readModel_ok h
  have hI := hr.input
  have hN : M.input.wavesOf b = I.wavesOf b := by rw [hI]
  unfold Model.mapping
  rw [hN, List.getD_eq_getElem _ _ hw, List.mem_flatMap]
  constructor
  · rintro ⟨i, hi, hm⟩
    obtain ⟨j, hj, e⟩ := List.mem_map.1 hm
    cases e
    have hi' := List.mem_range.1 hi
    rw [List.mem_filter, List.mem_range, decide_eq_true_eq] at hj
    have hc : M.comp ic = M.comps[ic] := by unfold Model.comp; rw [List.getD_eq_getElem _ _ hi']
    obtain ⟨hj1, hj2⟩ := hj
    rw [hc] at hj1 hj2
    have hd : M.comps[ic].chan ch = M.comps[ic].channels[ch] := by unfold Component.chan; rw [List.getD_eq_getElem _ _ hj1]
    have hwf := hr.wf.waveAt _ (List.getElem_mem hi') ch hj1 b (by rw [hI]; exact hb) w (by rw [hI]; exact hw)
      (by rw [hN, List.getD_eq_getElem _ _ hw]; exact hj2)
    rw [hd] at hj2 hwf
    exact ⟨_, List.getElem?_eq_getElem hi', _, List.getElem?_eq_getElem hj1, hwf.2, hj2, hwf.1⟩
  · rintro ⟨c, hc, d, hd, -, hn, -⟩
    obtain ⟨hi, rfl⟩ := List.getElem?_eq_some_iff.1 hc
    obtain ⟨hj, rfl⟩ := List.getElem?_eq_some_iff.1 hd
    refine ⟨ic, List.mem_range.2 hi, List.mem_map.2 ⟨ch, ?_, rfl⟩⟩
    have hc : M.comp ic = M.comps[ic] := by unfold Model.comp; rw [List.getD_eq_getElem _ _ hi]
    rw [hc, List.mem_filter, List.mem_range, decide_eq_true_eq]
    refine ⟨hj, ?_⟩
    unfold Component.chan
    rw [List.getD_eq_getElem _ _ hj]
    exact hn

theorem findAnchor_same {I : Input} {comps : List Component} {b b' : ℕ} {a : Name × Name} {x y : ℕ × ℕ} (hw : I.wavesOf b = I.wavesOf b')
    (hx : findAnchor I comps b a = some x) (hy : findAnchor I comps b' a = some y) : x = y := by
  unfold findAnchor at hx hy
  rw [hw] at hx
  dsimp only at hx hy
  split at hx
  · rename_i w ic ch hh
    rw [hh] at hy
    dsimp only at hy
    split at hx
    · cases hx
    · rename_i c hc
      rw [hc] at hy
      dsimp only at hy
      split at hx
      · split at hy
        · exact (Option.some.inj hx).symm.trans (Option.some.inj hy)
        · cases hy
      · cases hx
  · cases hx

/-- **C105.** In bins of the same structure everything of the model is the same if the anchors of the configuration are the same. -/
theorem mappingEqual_iff {I : Input} {cfg : Cfg} {M : Model} (h : readModel I cfg = some M) (hs : SameStructure I) :
    M.mappingEqual = true ↔ ∀ b < I.nrBins, cfg.anchors[b]? = cfg.anchors[0]? := by
  have hr := readModel_ok h
  have hI := hr.input
  have h0 : 0 < I.nrBins := Nat.pos_of_ne_zero hr.bins
  obtain ⟨a0, ha0, hf0⟩ := hr.anchor 0 h0
  unfold Model.mappingEqual
  rw [hI, List.all_eq_true]
  constructor
  · intro hm b hb
    by_cases e : b = 0
    · rw [e]
    have := hm b (List.mem_range'_1.2 ⟨by omega, by omega⟩)
    rw [Bool.and_eq_true, Bool.and_eq_true, Bool.and_eq_true, decide_eq_true_eq, decide_eq_true_eq] at this
    obtain ⟨⟨⟨h1, h2⟩, -⟩, -⟩ := this
    obtain ⟨a, ha, hf⟩ := hr.anchor b hb
    obtain ⟨-, e1, c, hc, e2, -⟩ := findAnchor_wave hf
    obtain ⟨-, e3, c', hc', e4, -⟩ := findAnchor_wave hf0
    rw [h1, hs.waves b hb, e3] at e1
    rw [h2, hc'] at hc
    cases hc
    rw [e4] at e2
    rw [ha, ha0, Option.some_inj]
    exact Prod.ext e1.symm e2.symm
  · intro hm b hb
    have hb' : b < I.nrBins := by have := List.mem_range'_1.1 hb; omega
    obtain ⟨a, ha, hf⟩ := hr.anchor b hb'
    have e : a = a0 := by
      have := hm b hb'
      rw [ha, ha0] at this
      exact Option.some.inj this
    rw [e] at hf
    have he := findAnchor_same (hs.waves b hb') hf hf0
    have e1 := congrArg Prod.fst he
    have e2 := congrArg Prod.snd he
    dsimp only at e1 e2
    rw [Bool.and_eq_true, Bool.and_eq_true, Bool.and_eq_true, decide_eq_true_eq, decide_eq_true_eq, decide_eq_true_eq, List.all_eq_true]
    refine ⟨⟨⟨e1, e2⟩, ?_⟩, fun w _ => decide_eq_true (mapping_same (by rw [hI]; exact hs.waves b hb') w)⟩
    unfold Model.anchorChannel
    rw [e2]
    congr 1
    obtain ⟨-, -, c, hc, -⟩ := findAnchor_wave hf0
    obtain ⟨hi, -⟩ := List.getElem?_eq_some_iff.1 hc
    have hmem := comp_mem (M := M) hi
    apply List.find?_congr
    intro j hj
    have hok := (hr.comps _ hmem).ok.chans _ (chan_mem (List.mem_range.1 hj))
    rw [decide_eq_decide, chanOk_bins hr.unique hok, chanOk_bins hr.unique hok, hs.waves b hb']
    exact and_congr_left fun _ => ⟨fun _ => h0, fun _ => hb'⟩

theorem head_length (I : Input) : (I.waves.map List.length).headD 0 = (I.wavesOf 0).length := by
  unfold Input.wavesOf
  cases I.waves with
  | nil => rfl
  | cons a l => rfl

/-- **C105.** The sum over the bins is plotted for every wave exactly if there are several bins, all of them have the same waves in the same order, the
same mass bins and the same anchor. -/
theorem sum_iff {I : Input} {cfg : Cfg} {M : Model} (h : readModel I cfg = some M) (w : ℕ) :
    Plots.Job.sum w ∈ M.plots ↔
      2 ≤ I.nrBins ∧ SameStructure I ∧ (∀ b < I.nrBins, cfg.anchors[b]? = cfg.anchors[0]?) ∧ w < (I.wavesOf 0).length := by
  have hr := readModel_ok h
  have hw := readModel_waves h
  have h0 := hr.bins
  unfold Model.plots
  rw [hr.input, Plots.jobs_sum, List.length_map, hw, equalStructure_iff I hw, head_length]
  constructor
  · rintro ⟨⟨h1, h2, h3⟩, h4⟩
    exact ⟨by omega, h2, (mappingEqual_iff h h2).1 h3, h4⟩
  · rintro ⟨h1, h2, h3, h4⟩
    exact ⟨⟨by omega, h2, (mappingEqual_iff h h2).2 h3⟩, h4⟩

/-- **C105.** A sum that is plotted is never refused, and the components and channels of the first bin with which it is labelled are those of every bin. -/
theorem sum_ok {I : Input} {cfg : Cfg} {M : Model} (h : readModel I cfg = some M) {w : ℕ} (hs : Plots.Job.sum w ∈ M.plots) :
    (equalStructure M.input && M.mappingEqual) = true ∧
      ∀ b < I.nrBins, ∀ ic ch, (ic, ch) ∈ M.mapping 0 w →
        ∃ c, M.comps[ic]? = some c ∧ ∃ d, c.channels[ch]? = some d ∧ b ∈ d.bins ∧ d.waveAt b = some w ∧ (I.wavesOf b)[w]? = some d.waveName := by
  obtain ⟨h2, hst, ha, hw⟩ := (sum_iff h w).1 hs
  have hr := readModel_ok h
  refine ⟨?_, ?_⟩
  · rw [Bool.and_eq_true, hr.input, equalStructure_iff I (readModel_waves h)]
    exact ⟨hst, (mappingEqual_iff h hst).2 ha⟩
  · intro b hb ic ch hm
    have hwb : w < (I.wavesOf b).length := by rw [hst.waves b hb]; exact hw
    rw [mapping_same (b' := b) (by rw [hr.input]; exact (hst.waves b hb).symm) w] at hm
    obtain ⟨c, hc, d, hd, h3, h4, h5⟩ := (mapping_iff h hb hwb ic ch).1 hm
    exact ⟨c, hc, d, hd, h3, h5, by rw [List.getElem?_eq_getElem hwb, h4]⟩

/-- **C105.** The final-state mass dependence is plotted in every bin, also if one function is common to all of them: the number that is compared
with one is the number of bins. -/
theorem fsmd_iff {I : Input} {cfg : Cfg} {M : Model} (h : readModel I cfg = some M) (dir : Option ℕ) (b : ℕ) :
    Plots.Job.fsmd dir b ∈ M.plots ↔ M.fsmd.isSome = true ∧ b < I.nrBins ∧ dir = if I.nrBins = 1 then none else some b := by
  have hr := readModel_ok h
  have hw := readModel_waves h
  have h0 := hr.bins
  unfold Model.plots
  rw [hr.input, Plots.jobs_fsmd, List.length_map, hw, equalStructure_iff I hw]
  have h1 : I.nrBins = 1 → SameStructure I := fun e =>
    ⟨fun b hb => by rw [show b = 0 by omega], fun b hb => by rw [show b = 0 by omega], fun b hb m _ => by rw [show b = 0 by omega]⟩
  cases M.fsmd with
  | none => simp
  | some f =>
    rw [Option.map_some]
    constructor
    · rintro ⟨k, hk, ⟨e, -, e1, e2⟩ | ⟨hn, hb, e⟩⟩
      · cases hk
        exact ⟨rfl, by omega, by rw [if_pos e, e1]⟩
      · exact ⟨rfl, hb, e⟩
    · rintro ⟨-, hb, e⟩
      refine ⟨_, rfl, ?_⟩
      by_cases h' : I.nrBins = 1
      · rw [if_pos h'] at e
        exact Or.inl ⟨h', h1 h', e, by omega⟩
      · exact Or.inr ⟨fun hh => h' hh.1, hb, e⟩

end Rpwa.ResFit
