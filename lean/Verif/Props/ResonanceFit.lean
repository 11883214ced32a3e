import Verif.Lemmas.ResFitMaps
import Mathlib.Tactic.NormNum.Ineq
import Mathlib.Tactic.Linarith

/-!
# C42, C43: the chi-square of a resonance fit and its parameters
-/

namespace Rpwa.ResFit

open Spec

/-! ## C42: the chi-square does not depend on the evaluation history -/

theorem waveLimits_le {n : ℕ} (hn : 0 < n) (center : ℕ → ℝ) (lim : ℝ × ℝ) :
    (waveLimits n center lim).2 < n := by
  classical
  have : ∀ (l : List ℕ), (∀ m ∈ l, m < n) → ∀ r : ℕ × ℕ, r.2 < n →
      (l.foldl (fun (r : ℕ × ℕ) m =>
        let first := if center m < lim.1 then m + 1 else r.1
        let first := if center m = lim.1 then m else first
        (first, if center m ≤ lim.2 then m else r.2)) r).2 < n := by
    intro l
    induction l with
    | nil => intro _ r hr; exact hr
    | cons m l ih =>
      intro hl r hr
      rw [List.foldl_cons]
      refine ih (fun m' hm' => hl m' (List.mem_cons_of_mem _ hm')) _ ?_
      dsimp only
      split
      · exact hl m List.mem_cons_self
      · exact hr
  unfold waveLimits
  dsimp only
  split
  · omega
  · exact this _ (fun m hm => List.mem_range.mp hm) (0, n - 1) (by dsimp only; omega)

/-- a function object as the program builds it: model read from the configuration `cfg`, mass-bin
limits from the mass limits `lims` of the waves -/
structure Built (I : Input) (cfg : Cfg) (lims : ℕ → ℕ → ℝ × ℝ) (F : Fn) : Prop where
  model : readModel I cfg = some F.M
  limits : ∀ b i j, F.D.limits b i j = pairLimits I lims b i j
  masses : ∀ b < I.nrBins, 0 < I.nrMassOf b

theorem Built.dataOk {I : Input} {cfg : Cfg} {lims : ℕ → ℕ → ℝ × ℝ} {F : Fn} (h : Built I cfg lims F) :
    DataOk F := by
  have hr := readModel_ok h.model
  have hI := hr.input
  refine ⟨?_, ?_, ?_, ?_⟩
  · intro b hb w _
    rw [h.limits, hI]
    rw [hI] at hb
    unfold pairLimits
    dsimp only
    rw [min_self]
    exact waveLimits_le (h.masses b hb) _ _
  · intro b hb i _ j _
    rw [h.limits, h.limits]
    unfold pairLimits
    dsimp only
    rw [max_self]
    exact le_max_left _ _
  · intro b hb i _ j _
    rw [h.limits, h.limits]
    unfold pairLimits
    dsimp only
    rw [min_self]
    exact min_le_left _ _
  · intro b hb
    rw [hI] at hb
    unfold Fn.nrWaves
    rw [hI]
    exact hr.anchor_lt hb

/-- the state between two evaluations -/
structure Good (F : Fn) (st : St) : Prop where
  inv : Inv F.M st.P st.K
  rest : ∀ e, e ∉ (script F.M).map Cmd.key → entry st.P e = 0

theorem good_empty (F : Fn) : Good F St.empty := by
  refine ⟨⟨fun _ _ _ _ _ _ => Or.inl rfl, fun _ _ _ _ _ _ => Or.inl rfl,
    fun _ _ _ _ _ _ => Or.inl rfl, fun _ _ _ _ _ _ => Or.inl rfl⟩, fun e _ => ?_⟩
  cases e <;> rfl

theorem chiSquare_step {I : Input} {cfg : Cfg} {lims : ℕ → ℕ → ℝ × ℝ} {F : Fn}
    (hF : Built I cfg lims F) (hc : F.useProdAmps = true ∨ F.D.useCov ≠ .full) {st : St}
    (h : Good F st) (par : ℕ → ℝ) :
    ∃ st', F.chiSquare st par = some (chi2 F par, st') ∧ Good F st' := by
  have hr := readModel_ok hF.model
  have wf := hr.wf
  have hD := hF.dataOk
  have hok : ∀ f, F.M.fsmd = some f → FsmdOk f := fun f hf => (hr.fsmd f hf).ok
  have hnr : ∀ f, F.M.fsmd = some f → f.nrFn ≤ F.M.input.nrBins := by
    intro f hf; rw [hr.input]; exact (hr.fsmd f hf).nrFn
  have h1 := importAll_inv wf hnr par st h.inv
  have h2 := importAll_params wf hok par st h.rest
  have h3 : ∀ e, e ∉ (script F.M).map Cmd.key → entry (F.M.importAll par st).2.P e = 0 :=
    fun e he => (importAll_rest wf hok par st e he).trans (h.rest e he)
  unfold Fn.chiSquare chi2
  dsimp only
  cases hp : F.useProdAmps with
  | true =>
    rw [if_pos rfl, if_pos rfl]
    obtain ⟨v, i⟩ := chiSquareAmps_spec wf hD h1
    refine ⟨⟨(F.M.importAll par st).2.P, (F.chiSquareAmps (F.M.importAll par st).2.P
      (F.M.importAll par st).2.K).2⟩, ?_, ⟨i, h3⟩⟩
    rw [v, h2]
  | false =>
    rw [if_neg (by decide), if_neg (by decide)]
    have hc : F.D.useCov ≠ .full := by
      rcases hc with hc | hc
      · rw [hp] at hc; cases hc
      · exact hc
    obtain ⟨K', v, i⟩ := chiSquareRho_spec wf hD hc h1
    refine ⟨⟨(F.M.importAll par st).2.P, K'⟩, ?_, ⟨i, h3⟩⟩
    rw [v, h2]
    rfl

theorem after_good {I : Input} {cfg : Cfg} {lims : ℕ → ℕ → ℝ × ℝ} {F : Fn}
    (hF : Built I cfg lims F) (hc : F.useProdAmps = true ∨ F.D.useCov ≠ .full)
    (hs : List (ℕ → ℝ)) (st : St) (h : Good F st) : ∃ st', after F st hs = some st' ∧ Good F st' := by
  induction hs generalizing st with
  | nil => exact ⟨st, rfl, h⟩
  | cons p hs ih =>
    obtain ⟨st1, e, h1⟩ := chiSquare_step hF hc h p
    obtain ⟨st2, e2, h2⟩ := ih st1 h1
    exact ⟨st2, by unfold after; rw [e]; exact e2, h2⟩

/-- **C42.** For every model that can be read from a configuration, every history `hs` of parameter
arrays evaluated before and every parameter array `par`: the evaluations before do not end the program,
and the chi-square of `par` is the value computed from scratch — each wave's production amplitude is the
sum over its channels of dynamic amplitude × coupling × branching × phase space, all taken from `par`. -/
theorem chiSquare_history {I : Input} {cfg : Cfg} {lims : ℕ → ℕ → ℝ × ℝ} {F : Fn}
    (hF : Built I cfg lims F) (hc : F.useProdAmps = true ∨ F.D.useCov ≠ .full)
    (hs : List (ℕ → ℝ)) (par : ℕ → ℝ) :
    ∃ st, after F St.empty hs = some st ∧
      (F.chiSquare st par).map (fun r => r.1) = some (chi2 F par) := by
  obtain ⟨st, e, h⟩ := after_good hF hc hs St.empty (good_empty F)
  obtain ⟨st', e', _⟩ := chiSquare_step hF hc h par
  exact ⟨st, e, by rw [e']; rfl⟩

/-- The log-likelihood is minus one half of the chi-square from scratch. -/
theorem logLikelihood_history {I : Input} {cfg : Cfg} {lims : ℕ → ℕ → ℝ × ℝ} {F : Fn}
    (hF : Built I cfg lims F) (hc : F.useProdAmps = true ∨ F.D.useCov ≠ .full)
    (hs : List (ℕ → ℝ)) (par : ℕ → ℝ) :
    ∃ st, after F St.empty hs = some st ∧
      (F.logLikelihood st par).map (fun r => r.1) = some (-(1 / 2) * chi2 F par) := by
  obtain ⟨st, e, h⟩ := after_good hF hc hs St.empty (good_empty F)
  obtain ⟨st', e', _⟩ := chiSquare_step hF hc h par
  refine ⟨st, e, ?_⟩
  unfold Fn.logLikelihood
  rw [e']
  simp only [Option.map_some, Option.some.injEq]
  norm_num

/-- Two histories give the same value. -/
theorem chiSquare_independent {I : Input} {cfg : Cfg} {lims : ℕ → ℕ → ℝ × ℝ} {F : Fn}
    (hF : Built I cfg lims F) (hc : F.useProdAmps = true ∨ F.D.useCov ≠ .full)
    (hs hs' : List (ℕ → ℝ)) (st st' : St) (h : after F St.empty hs = some st)
    (h' : after F St.empty hs' = some st') (par : ℕ → ℝ) :
    (F.chiSquare st par).map (fun r => r.1) = (F.chiSquare st' par).map (fun r => r.1) := by
  obtain ⟨s1, e1, v1⟩ := chiSquare_history hF hc hs par
  obtain ⟨s2, e2, v2⟩ := chiSquare_history hF hc hs' par
  rw [h] at e1
  rw [h'] at e2
  cases e1
  cases e2
  rw [v1, v2]

/-- Amplitudes at masses that are not mass-bin centres (plots, phase-space of the fit result) are
computed without the cache and leave it unchanged. -/
theorem productionAmplitude_offCentre (M : Model) (P : Params) (K : Cache) (w b : ℕ) (mass : ℝ) :
    M.productionAmplitude P K w b mass none = (amp M P w b mass none, K) :=
  productionAmplitude_none M P K w b mass

/-! ## C43: the parameter array -/

/-- **C43.** No number of the model occurs twice in the layout of the parameter array. -/
theorem layout_nodup {I : Input} {cfg : Cfg} {M : Model} (h : readModel I cfg = some M) :
    (layout M).Nodup := by
  have hr := readModel_ok h
  have hk := keys_nodup hr.wf (fun f hf => (hr.fsmd f hf).ok)
  rw [← reads_script]
  have hsub : (reads (script M)).Sublist ((script M).map Cmd.key) := by
    unfold reads
    generalize script M = l
    induction l with
    | nil => exact List.Sublist.slnil
    | cons c l ih =>
      cases c with
      | read e => exact ih.cons_cons _
      | const e v => exact ih.cons _
  exact hk.sublist hsub

/-- **C43.** The number of parameters the model reports, the number of values an import consumes and
the length of the layout are the same: the assertion at the end of the import holds. -/
theorem import_count {I : Input} {cfg : Cfg} {M : Model} (h : readModel I cfg = some M)
    (par : ℕ → ℝ) (st : St) :
    (M.importAll par st).1 = M.nrParameters ∧ M.nrParameters = (layout M).length := by
  have hr := readModel_ok h
  exact ⟨(importAll_count (fun f hf => (hr.fsmd f hf).ok) par st).trans (nrParameters_eq M).symm,
    nrParameters_eq M⟩

/-- **C43.** For any previous state, position `i` of the array ends up in the `i`-th number of the
layout. -/
theorem import_at {I : Input} {cfg : Cfg} {M : Model} (h : readModel I cfg = some M)
    (par : ℕ → ℝ) (st : St) (i : ℕ) (e : Entry) (hi : (layout M)[i]? = some e) :
    entry (M.importAll par st).2.P e = par i := by
  have hr := readModel_ok h
  have hok : ∀ f, M.fsmd = some f → FsmdOk f := fun f hf => (hr.fsmd f hf).ok
  have hv := importAll_view hok par st
  have hP : (M.importAll par st).2.P = (run par (0, st.P) (script M)).2 := congrArg Prod.snd hv
  have hg := (get_run par (script M) (keys_nodup hr.wf hok) 0 st.P e).1
  rw [reads_script] at hg
  rw [hP, hg (List.mem_of_getElem? hi), Nat.zero_add]
  obtain ⟨hlt, he⟩ := List.getElem?_eq_some_iff.mp hi
  rw [← he, (layout_nodup h).idxOf_getElem i hlt]

/-- Two arrays that lead to the same parameters agree at all positions. -/
theorem import_injective {I : Input} {cfg : Cfg} {M : Model} (h : readModel I cfg = some M)
    (par par' : ℕ → ℝ) (st st' : St)
    (he : (M.importAll par st).2.P = (M.importAll par' st').2.P) (i : ℕ) (hi : i < M.nrParameters) :
    par i = par' i := by
  rw [nrParameters_eq] at hi
  have hi := List.getElem?_eq_getElem hi
  rw [← import_at h par st i _ hi, ← import_at h par' st' i _ hi, he]

/-- Numbers that are neither in the layout nor branchings are not touched by an import. -/
theorem import_frame {I : Input} {cfg : Cfg} {M : Model} (h : readModel I cfg = some M)
    (par : ℕ → ℝ) (st : St) (e : Entry) (he : e ∉ layout M)
    (hbr : ∀ id k, e ≠ .brRe id k ∧ e ≠ .brIm id k) :
    entry (M.importAll par st).2.P e = entry st.P e := by
  have hr := readModel_ok h
  refine importAll_rest hr.wf (fun f hf => (hr.fsmd f hf).ok) par st e ?_
  intro hk
  obtain ⟨c, hc, rfl⟩ := List.mem_map.mp hk
  cases c with
  | read e => exact he (by rw [← reads_script]; exact mem_reads.mpr hc)
  | const e v =>
    unfold script at hc
    rcases List.mem_append.mp hc with hc | hc
    · rcases List.mem_append.mp hc with hc | hc
      · rcases List.mem_append.mp hc with hc | hc
        · obtain ⟨c, _, hc⟩ := List.mem_flatMap.mp hc
          unfold coupScript at hc
          simp at hc
        · obtain ⟨c, _, hc⟩ := List.mem_flatMap.mp hc
          unfold brScript at hc
          obtain ⟨k, _, hc⟩ := List.mem_flatMap.mp hc
          split at hc
          · simp only [List.mem_cons, List.not_mem_nil, or_false] at hc
            rcases hc with hc | hc
            · cases hc; exact (hbr _ _).1 rfl
            · cases hc; exact (hbr _ _).2 rfl
          · simp at hc
      · obtain ⟨c, _, hc⟩ := List.mem_flatMap.mp hc
        unfold parScript at hc
        simp at hc
    · cases hm : M.fsmd with
      | none => rw [hm] at hc; cases hc
      | some f =>
        rw [hm] at hc
        simp [fsmdScript] at hc

/-! ### which parameters the amplitudes use -/

theorem readChannels_names {I : Input} {names : List Name} {chs : List Channel}
    (h : readChannels I names = some chs) : chs.map (fun ch => ch.waveName) = names := by
  unfold readChannels at h
  have : ∀ (l : List Name) (acc chs : List Channel), l.foldlM (fun acc name =>
      if acc.any (fun ch => ch.waveName = name) then none
      else (mkChannel I name).map fun ch => acc ++ [ch]) acc = some chs →
      chs.map (fun ch => ch.waveName) = acc.map (fun ch => ch.waveName) ++ l := by
    intro l
    induction l with
    | nil =>
      intro acc chs h
      rw [List.foldlM_nil] at h
      cases h; simp
    | cons n l ih =>
      intro acc chs h
      rw [List.foldlM_cons] at h
      obtain ⟨acc', h1, h2⟩ := Option.bind_eq_some_iff.mp h
      split at h1
      · cases h1
      · obtain ⟨ch, hm, rfl⟩ := Option.map_eq_some_iff.mp h1
        rw [ih _ _ h2, List.map_append, List.map_singleton, (mkChannel_spec hm).1, List.append_assoc]
        rfl
  exact this names [] chs h

theorem mkChannel_bins {I : Input} {name : Name} {ch : Channel} (h : mkChannel I name = some ch) :
    ch.bins ≠ [] := by
  have hs := mkChannel_spec h
  unfold mkChannel at h
  dsimp only at h
  split at h
  · cases h
  · rename_i hall
    simp only [Bool.not_eq_true, List.all_eq_false] at hall
    obtain ⟨w, hw, hn⟩ := hall
    obtain ⟨b, hb, e⟩ := List.getElem_of_mem hw
    have hb' : b < ch.waveIdx.length := by rw [hs.2.1]; exact hb
    have : b ∈ ch.bins := by
      unfold Channel.bins
      rw [List.mem_filter, List.mem_range]
      refine ⟨hb', ?_⟩
      unfold Channel.waveAt
      rw [hs.2.1, List.getD_eq_getElem _ _ hb, e]
      cases w with
      | none => cases hn
      | some _ => rfl
    intro h0
    rw [h0] at this
    cases this

theorem readChannels_bins {I : Input} {names : List Name} {chs : List Channel}
    (h : readChannels I names = some chs) : ∀ ch ∈ chs, ch.bins ≠ [] := by
  unfold readChannels at h
  refine foldlM_inv (fun acc : List Channel => ∀ ch ∈ acc, ch.bins ≠ []) _ _ ?_ [] chs
    (fun _ h => (List.not_mem_nil h).elim) h
  intro name _ acc acc' hacc he
  split at he
  · cases he
  · obtain ⟨ch, hm, rfl⟩ := Option.map_eq_some_iff.mp he
    intro c hc
    rcases List.mem_append.mp hc with hc | hc
    · exact hacc c hc
    · rw [List.mem_singleton] at hc
      subst hc
      exact mkChannel_bins hm

/-- the channels of a component as handed to the construction of the mapping -/
def chanList (c : Component) : List (Name × List ℕ) :=
  c.channels.map fun ch => (ch.waveName, ch.bins)

theorem chanList_length (c : Component) : (chanList c).length = c.channels.length := by
  unfold chanList; rw [List.length_map]

theorem chanList_name (c : Component) {i : ℕ} (h : i < c.channels.length) :
    chName (chanList c) i = (c.chan i).waveName := by
  unfold chName chanList Component.chan
  rw [List.getD_eq_getElem _ _ (by rw [List.length_map]; exact h), List.getElem_map,
    List.getD_eq_getElem _ _ h]

theorem chanList_bins (c : Component) {i : ℕ} (h : i < c.channels.length) :
    chBins (chanList c) i = (c.chan i).bins := by
  unfold chBins chanList Component.chan
  rw [List.getD_eq_getElem _ _ (by rw [List.length_map]; exact h), List.getElem_map,
    List.getD_eq_getElem _ _ h]

/-- the configuration gives every component whose channels share couplings the same bins for equal
quantum numbers -/
def CfgSameBins (I : Input) (cfg : Cfg) : Prop :=
  cfg.useBranchings = true → ∀ cc ∈ cfg.comps, SameBins I cc.chans

theorem mapsBr_of {I : Input} {cfg : Cfg} {M : Model} (h : readModel I cfg = some M)
    (hs : CfgSameBins I cfg) (hb : cfg.useBranchings = true) {c : Component} (hc : c ∈ M.comps)
    (hlen : c.channels.length > 1) : MapsBr (chanList c) c.maps := by
  have hr := readModel_ok h
  obtain ⟨cc, hcc, hm⟩ := hr.comps c hc
  obtain ⟨hok, _, _, _, hch, hmap⟩ := mkComponent_ok hm
  rw [hb] at hmap
  refine mkMaps_branch (by rw [chanList_length]; exact hlen) ?_ ?_ ?_ hmap
  · intro i hi
    rw [chanList_length] at hi
    rw [chanList_bins c hi]
    exact readChannels_bins hch _ (chan_mem hi)
  · intro i hi
    rw [chanList_length] at hi
    rw [chanList_bins c hi]
    exact channel_bins_nodup _
  · intro i hi j hj hq b
    rw [chanList_length] at hi hj
    rw [chanList_name c hi, chanList_name c hj] at hq
    rw [chanList_bins c hi, chanList_bins c hj, chanOk_bins hr.unique (hok.chans _ (chan_mem hi)),
      chanOk_bins hr.unique (hok.chans _ (chan_mem hj))]
    have hn := readChannels_names hch
    have hmi : (c.chan i).waveName ∈ cc.chans := by
      rw [← hn]; exact List.mem_map.mpr ⟨_, chan_mem hi, rfl⟩
    have hmj : (c.chan j).waveName ∈ cc.chans := by
      rw [← hn]; exact List.mem_map.mpr ⟨_, chan_mem hj, rfl⟩
    constructor
    · rintro ⟨h1, h2⟩
      exact ⟨h1, (hs hb cc hcc _ hmi _ hmj hq b h1).mp h2⟩
    · rintro ⟨h1, h2⟩
      exact ⟨h1, (hs hb cc hcc _ hmi _ hmj hq b h1).mpr h2⟩

theorem maps_plain_of {I : Input} {cfg : Cfg} {M : Model} (h : readModel I cfg = some M)
    {c : Component} (hc : c ∈ M.comps) (hb : cfg.useBranchings = false ∨ c.channels.length ≤ 1) :
    c.maps = ⟨List.range c.channels.length, List.replicate c.channels.length 0, c.channels.length,
      List.range c.channels.length, 1, [0], [true]⟩ := by
  have hr := readModel_ok h
  obtain ⟨cc, hcc, hm⟩ := hr.comps c hc
  obtain ⟨hok, _, _, _, hch, hmap⟩ := mkComponent_ok hm
  have := mkMaps_plain (chans := chanList c) (by rw [chanList_length]; exact hb) hmap
  rw [chanList_length] at this
  exact this

/-- **C43.** Every number an amplitude depends on is a parameter of the fit: for every component, every
decay channel and every bin the channel is used in, real and imaginary part of its coupling in that bin
are in the parameter array, and its branching is in the parameter array or fixed to 1. -/
theorem used_in_layout {I : Input} {cfg : Cfg} {M : Model} (h : readModel I cfg = some M)
    (hs : CfgSameBins I cfg) {c : Component} (hc : c ∈ M.comps) {ch b : ℕ}
    (hch : ch < c.channels.length) (hb : b ∈ (c.chan ch).bins) :
    Entry.coupRe c.id (c.maps.chanCoup.getD ch 0) b ∈ layout M ∧
    Entry.coupIm c.id (c.maps.chanCoup.getD ch 0) b ∈ layout M ∧
    ((Entry.brRe c.id (c.maps.chanBr.getD ch 0) ∈ layout M ∧
      Entry.brIm c.id (c.maps.chanBr.getD ch 0) ∈ layout M) ∨
     (∀ par st, (M.importAll par st).2.P.br c.id (c.maps.chanBr.getD ch 0) = 1)) := by
  have hr := readModel_ok h
  -- the coupling
  have hcoup : c.maps.chanCoup.getD ch 0 < c.maps.nrCoup ∧ b ∈ c.coupBins (c.maps.chanCoup.getD ch 0) := by
    by_cases hbr : cfg.useBranchings = true ∧ c.channels.length > 1
    · have hm := mapsBr_of h hs hbr.1 hc hbr.2
      have hch' : ch < (chanList c).length := by rw [chanList_length]; exact hch
      refine ⟨hm.coup ch hch', ?_⟩
      obtain ⟨hle, hq⟩ := hm.master ch hch'
      unfold Component.coupBins
      have hj : c.maps.fromCoup.getD (c.maps.chanCoup.getD ch 0) 0 < c.channels.length := by omega
      rw [chanList_name c hj, chanList_name c hch] at hq
      obtain ⟨cc, hcc, hmk⟩ := hr.comps c hc
      obtain ⟨hok, _, _, _, hrc, _⟩ := mkComponent_ok hmk
      have hn := readChannels_names hrc
      rw [chanOk_bins hr.unique (hok.chans _ (chan_mem hch))] at hb
      rw [chanOk_bins hr.unique (hok.chans _ (chan_mem hj))]
      refine ⟨hb.1, (hs hbr.1 cc hcc _ ?_ _ ?_ hq b hb.1).mpr hb.2⟩
      · rw [← hn]; exact List.mem_map.mpr ⟨_, chan_mem hj, rfl⟩
      · rw [← hn]; exact List.mem_map.mpr ⟨_, chan_mem hch, rfl⟩
    · have hm := maps_plain_of h hc (by
        by_cases hu : cfg.useBranchings = true
        · exact Or.inr (Nat.le_of_not_lt (fun h => hbr ⟨hu, h⟩))
        · exact Or.inl (by simpa using hu))
      have h1 : c.maps.chanCoup.getD ch 0 = ch := by
        rw [hm]; dsimp only
        rw [List.getD_eq_getElem _ _ (by rw [List.length_range]; exact hch), List.getElem_range]
      have h2 : c.maps.fromCoup.getD ch 0 = ch := by
        rw [hm]; dsimp only
        rw [List.getD_eq_getElem _ _ (by rw [List.length_range]; exact hch), List.getElem_range]
      have h3 : c.maps.nrCoup = c.channels.length := by rw [hm]
      rw [h1, h3]
      unfold Component.coupBins
      rw [h2]
      exact ⟨hch, hb⟩
  have hlay : ∀ e, e ∈ coupEntries c → e ∈ layout M := by
    intro e he
    unfold layout
    exact List.mem_append_left _ (List.mem_append_left _ (List.mem_append_left _
      (List.mem_flatMap.mpr ⟨c, hc, he⟩)))
  refine ⟨hlay _ (mem_coupEntries.mpr ⟨_, hcoup.1, b, hcoup.2, Or.inl rfl⟩),
    hlay _ (mem_coupEntries.mpr ⟨_, hcoup.1, b, hcoup.2, Or.inr rfl⟩), ?_⟩
  -- the branching
  have hbr : c.maps.chanBr.getD ch 0 < c.maps.nrBr := by
    by_cases hbr : cfg.useBranchings = true ∧ c.channels.length > 1
    · have hm := mapsBr_of h hs hbr.1 hc hbr.2
      have hch' : ch < (chanList c).length := by rw [chanList_length]; exact hch
      rw [hm.br ch hch', hm.nrBr]
      exact hch'
    · have hm := maps_plain_of h hc (by
        by_cases hu : cfg.useBranchings = true
        · exact Or.inr (Nat.le_of_not_lt (fun h => hbr ⟨hu, h⟩))
        · exact Or.inl (by simpa using hu))
      rw [hm]
      dsimp only
      rw [List.getD_eq_getElem _ _ (by rw [List.length_replicate]; exact hch), List.getElem_replicate]
      omega
  by_cases hfix : c.maps.brFixed.getD (c.maps.chanBr.getD ch 0) false = true
  · right
    intro par st
    have hok : ∀ f, M.fsmd = some f → FsmdOk f := fun f hf => (hr.fsmd f hf).ok
    have hv := importAll_view hok par st
    have hP : (M.importAll par st).2.P = (run par (0, st.P) (script M)).2 := congrArg Prod.snd hv
    have hk := keys_nodup hr.wf hok
    have hsc : ∀ cmd, cmd ∈ brScript c → cmd ∈ script M := by
      intro cmd hcmd
      unfold script
      exact List.mem_append_left _ (List.mem_append_left _ (List.mem_append_right _
        (List.mem_flatMap.mpr ⟨c, hc, hcmd⟩)))
    have hin : ∀ cmd, cmd ∈ [Cmd.const (.brRe c.id (c.maps.chanBr.getD ch 0)) 1,
        Cmd.const (.brIm c.id (c.maps.chanBr.getD ch 0)) 0] → cmd ∈ script M := by
      intro cmd hcmd
      refine hsc cmd ?_
      unfold brScript
      refine List.mem_flatMap.mpr ⟨_, List.mem_range.mpr hbr, ?_⟩
      rw [if_pos hfix]
      exact hcmd
    have g1 := (get_run par (script M) hk 0 st.P (.brRe c.id (c.maps.chanBr.getD ch 0))).2.1 1
      (hin _ (by simp))
    have g2 := (get_run par (script M) hk 0 st.P (.brIm c.id (c.maps.chanBr.getD ch 0))).2.1 0
      (hin _ (by simp))
    rw [hP]
    exact Complex.ext g1 g2
  · left
    have hlay : ∀ e, e ∈ brEntries c → e ∈ layout M := by
      intro e he
      unfold layout
      exact List.mem_append_left _ (List.mem_append_left _ (List.mem_append_right _
        (List.mem_flatMap.mpr ⟨c, hc, he⟩)))
    have hin : ∀ e, e ∈ [Entry.brRe c.id (c.maps.chanBr.getD ch 0),
        .brIm c.id (c.maps.chanBr.getD ch 0)] → e ∈ layout M := by
      intro e he
      refine hlay e ?_
      unfold brEntries
      refine List.mem_flatMap.mpr ⟨_, List.mem_range.mpr hbr, ?_⟩
      rw [if_neg hfix]
      exact he
    exact ⟨hin _ (by simp), hin _ (by simp)⟩

/-- **C43.** If branchings are used, two channels of a component share a coupling iff their waves have
the same quantum numbers, each channel has its own branching and exactly the branching of the first
channel with given quantum numbers is fixed to 1. -/
theorem shared_couplings {I : Input} {cfg : Cfg} {M : Model} (h : readModel I cfg = some M)
    (hs : CfgSameBins I cfg) (hb : cfg.useBranchings = true) {c : Component} (hc : c ∈ M.comps)
    (hlen : c.channels.length > 1) {i j : ℕ} (hi : i < c.channels.length)
    (hj : j < c.channels.length) :
    (c.maps.chanCoup.getD i 0 = c.maps.chanCoup.getD j 0 ↔
      waveQN (c.chan i).waveName = waveQN (c.chan j).waveName) ∧
    (c.maps.chanBr.getD i 0 = c.maps.chanBr.getD j 0 ↔ i = j) ∧
    (c.maps.brFixed.getD (c.maps.chanBr.getD i 0) false = true ↔
      ∀ l < i, waveQN (c.chan l).waveName ≠ waveQN (c.chan i).waveName) := by
  have hm := mapsBr_of h hs hb hc hlen
  have hi' : i < (chanList c).length := by rw [chanList_length]; exact hi
  have hj' : j < (chanList c).length := by rw [chanList_length]; exact hj
  have h1 := hm.share i hi' j hj'
  rw [chanList_name c hi, chanList_name c hj] at h1
  refine ⟨h1, by rw [hm.br i hi', hm.br j hj'], ?_⟩
  rw [hm.br i hi', hm.fix i hi', chanList_name c hi]
  constructor
  · intro h l hl e
    refine h l hl ?_
    rw [chanList_name c (by omega)]
    exact e
  · intro h l hl e
    refine h l hl ?_
    rw [chanList_name c (by omega)] at e
    exact e

/-- Without branchings each channel has its own coupling and the branching is 1. -/
theorem own_couplings {I : Input} {cfg : Cfg} {M : Model} (h : readModel I cfg = some M)
    (hb : cfg.useBranchings = false) {c : Component} (hc : c ∈ M.comps) {i j : ℕ}
    (hi : i < c.channels.length) (hj : j < c.channels.length) :
    (c.maps.chanCoup.getD i 0 = c.maps.chanCoup.getD j 0 ↔ i = j) ∧
    c.maps.brFixed.getD (c.maps.chanBr.getD i 0) false = true := by
  have hm := maps_plain_of h hc (Or.inl hb)
  have h1 : ∀ i < c.channels.length, c.maps.chanCoup.getD i 0 = i := by
    intro i hi
    rw [hm]; dsimp only
    rw [List.getD_eq_getElem _ _ (by rw [List.length_range]; exact hi), List.getElem_range]
  refine ⟨by rw [h1 i hi, h1 j hj], ?_⟩
  rw [hm]
  dsimp only
  have h0 : (List.replicate c.channels.length 0).getD i 0 = 0 := by
    rw [List.getD_eq_getElem _ _ (by rw [List.length_replicate]; exact hi), List.getElem_replicate]
  rw [h0]
  rfl

/-- the shape parameters of all components and the parameters of the final-state mass dependence of all
bins are in the array -/
theorem shape_in_layout {I : Input} {cfg : Cfg} {M : Model} (h : readModel I cfg = some M) :
    (∀ c ∈ M.comps, ∀ k < c.shape.nrParams, Entry.par c.id k ∈ layout M) ∧
    (∀ f, M.fsmd = some f → ∀ b < I.nrBins, ∀ j < (f.fn b).npar,
      Entry.par f.id (f.parIndex.getD b 0 + j) ∈ layout M) := by
  have hr := readModel_ok h
  constructor
  · intro c hc k hk
    unfold layout
    exact List.mem_append_left _ (List.mem_append_right _ (List.mem_flatMap.mpr ⟨c, hc,
      mem_parEntries.mpr ⟨k, hk, rfl⟩⟩))
  · intro f hf b hb j hj
    unfold layout
    rw [hf]
    refine List.mem_append_right _ (mem_fsmdEntries.mpr ?_)
    have hg := hr.fsmd f hf
    cases hsame : f.same with
    | false => exact ⟨b, by rw [(hg.self hsame).1]; exact hb, j, hj, rfl⟩
    | true =>
      have hsb := hg.same hsame b hb
      refine ⟨0, by unfold Fsmd.nrFn; rw [if_pos hsame]; omega, j, hsb.1 ▸ hj, by rw [hsb.2]⟩

/-! ### start values -/

theorem comps_getD {I : Input} {cfg : Cfg} {M : Model} (hr : ReadOk I cfg M) {i : ℕ}
    (hi : i < M.comps.length) : (M.comp i).id = i ∧ M.comps[i]? = some (M.comp i) := by
  have h1 : M.comps[i]? = some (M.comp i) := by
    unfold Model.comp
    rw [List.getD_eq_getElem _ _ hi, List.getElem?_eq_getElem hi]
  refine ⟨?_, h1⟩
  have h2 : (M.comps.map (·.id))[i]? = some i := by
    rw [hr.ids, List.getElem?_range hi]
  rw [List.getElem?_map, h1] at h2
  simpa using h2

theorem startOf_other {M : Model} {P : Params} {e : Entry} (h : ∀ id k b, e ≠ .coupIm id k b) :
    startOf M P e = entry P e := by
  unfold startOf
  rw [if_neg]
  rintro ⟨id, k, b, he, _⟩
  exact h id k b he

/-- **C43.** The start values handed to the minimizer are, position by position, the stored values of the
numbers of the layout, with 0 for the imaginary part of the couplings of the anchor waves. -/
theorem startValues_layout {I : Input} {cfg : Cfg} {M : Model} (h : readModel I cfg = some M)
    (P : Params) : startValues M P = (layout M).map (startOf M P) := by
  classical
  have hr := readModel_ok h
  have hrange : ∀ {β : Type} (F : Component → List β), (List.range M.comps.length).flatMap
      (fun ic => F (M.comp ic)) = M.comps.flatMap F := by
    intro β F
    have : M.comps = (List.range M.comps.length).map M.comp := by
      have := range_map_comp M (fun c => c)
      rw [List.map_id'] at this
      exact this.symm
    conv_rhs => rw [this]
    rw [List.flatMap_map]
  unfold startValues layout
  simp only [List.map_append]
  congr 1
  · congr 1
    · congr 1
      · rw [List.map_flatMap, ← hrange (fun c => (coupEntries c).map (startOf M P))]
        refine List.flatMap_congr fun ic hic => ?_
        have hic := List.mem_range.mp hic
        obtain ⟨hid, hget⟩ := comps_getD hr hic
        unfold coupEntries
        rw [List.map_flatMap]
        refine List.flatMap_congr fun k _ => ?_
        rw [List.map_flatMap]
        refine List.flatMap_congr fun b _ => ?_
        rw [hid, List.map_cons, List.map_cons, List.map_nil, startOf_other (by simp)]
        congr 2
        unfold startOf
        refine if_congr ?_ rfl rfl
        constructor
        · rintro ⟨h1, h2⟩
          exact ⟨ic, k, b, rfl, M.comp ic, hget, h2, h1⟩
        · rintro ⟨id', k', b', he, c, hc, h2, h1⟩
          cases he
          rw [hget] at hc
          cases hc
          exact ⟨h1, h2⟩
      · rw [List.map_flatMap, ← hrange (fun c => (brEntries c).map (startOf M P))]
        refine List.flatMap_congr fun ic hic => ?_
        obtain ⟨hid, hget⟩ := comps_getD hr (List.mem_range.mp hic)
        unfold brEntries
        rw [List.map_flatMap]
        refine List.flatMap_congr fun k _ => ?_
        split
        · rfl
        · rw [hid, List.map_cons, List.map_cons, List.map_nil, startOf_other (by simp),
            startOf_other (by simp)]
          rfl
    · rw [List.map_flatMap, ← hrange (fun c => (parEntries c).map (startOf M P))]
      refine List.flatMap_congr fun ic hic => ?_
      obtain ⟨hid, hget⟩ := comps_getD hr (List.mem_range.mp hic)
      unfold parEntries
      rw [List.map_map]
      refine List.map_congr_left fun k _ => ?_
      rw [Function.comp_apply, startOf_other (by simp), hid]
      rfl
  · cases hm : M.fsmd with
    | none => rfl
    | some f =>
      dsimp only
      unfold fsmdEntries
      rw [List.map_flatMap]
      refine List.flatMap_congr fun b _ => ?_
      rw [List.map_map]
      refine List.map_congr_left fun j _ => ?_
      rw [Function.comp_apply, startOf_other (by simp), (hr.fsmd f hm).id]
      rfl

/-- **C43.** Importing the start values restores every number of the layout (anchor phases set to 0). -/
theorem startValues_import {I : Input} {cfg : Cfg} {M : Model} (h : readModel I cfg = some M)
    (P : Params) (st : St) (e : Entry) (he : e ∈ layout M) :
    entry (M.importAll (fun i => (startValues M P).getD i 0) st).2.P e = startOf M P e := by
  obtain ⟨i, hi, rfl⟩ := List.getElem_of_mem he
  rw [import_at h _ st i _ (List.getElem?_eq_getElem hi), startValues_layout h,
    List.getD_eq_getElem _ _ (by rw [List.length_map]; exact hi), List.getElem_map]

theorem startValues_length {I : Input} {cfg : Cfg} {M : Model} (h : readModel I cfg = some M)
    (P : Params) : (startValues M P).length = M.nrParameters := by
  rw [startValues_layout h, List.length_map, nrParameters_eq]

/-! ### anchor waves -/

/-- a coupling index is the coupling of its master channel -/
theorem chanCoup_master {I : Input} {cfg : Cfg} {M : Model} (h : readModel I cfg = some M)
    (hs : CfgSameBins I cfg) {c : Component} (hc : c ∈ M.comps) {k : ℕ} (hk : k < c.maps.nrCoup) :
    c.maps.fromCoup.getD k 0 < c.channels.length ∧
      c.maps.chanCoup.getD (c.maps.fromCoup.getD k 0) 0 = k := by
  by_cases hbr : cfg.useBranchings = true ∧ c.channels.length > 1
  · have hm := mapsBr_of h hs hbr.1 hc hbr.2
    obtain ⟨i, hi, rfl⟩ := hm.used k hk
    obtain ⟨hle, hq⟩ := hm.master i hi
    have hl := chanList_length c
    refine ⟨by omega, (hm.share _ (by omega) i hi).mpr hq⟩
  · have hm := maps_plain_of h hc (by
      by_cases hu : cfg.useBranchings = true
      · exact Or.inr (Nat.le_of_not_lt (fun h => hbr ⟨hu, h⟩))
      · exact Or.inl (by simpa using hu))
    have hk' : k < c.channels.length := by rw [hm] at hk; exact hk
    have h2 : c.maps.fromCoup.getD k 0 = k := by
      rw [hm]; dsimp only
      rw [List.getD_eq_getElem _ _ (by rw [List.length_range]; exact hk'), List.getElem_range]
    have h1 : c.maps.chanCoup.getD k 0 = k := by
      rw [hm]; dsimp only
      rw [List.getD_eq_getElem _ _ (by rw [List.length_range]; exact hk'), List.getElem_range]
    rw [h2]
    exact ⟨hk', h1⟩

/-- names of the channels of a component are distinct -/
theorem chan_name_inj {I : Input} {cfg : Cfg} {M : Model} (h : readModel I cfg = some M)
    {c : Component} (hc : c ∈ M.comps) {i j : ℕ} (hi : i < c.channels.length)
    (hj : j < c.channels.length) (e : (c.chan i).waveName = (c.chan j).waveName) : i = j := by
  obtain ⟨cc, _, hmk⟩ := (readModel_ok h).comps c hc
  obtain ⟨_, _, _, _, hrc, _⟩ := mkComponent_ok hmk
  have hnd : (c.channels.map fun ch => ch.waveName).Nodup := by
    unfold readChannels at hrc
    refine foldlM_inv (fun acc : List Channel => (acc.map fun ch => ch.waveName).Nodup) _ _ ?_ []
      c.channels List.nodup_nil hrc
    intro name _ acc acc' hacc he
    split at he
    · cases he
    · rename_i hnew
      obtain ⟨ch, hm, rfl⟩ := Option.map_eq_some_iff.mp he
      rw [List.map_append, List.map_singleton, List.nodup_append]
      refine ⟨hacc, List.nodup_singleton _, ?_⟩
      intro n hn n' hn' e
      rw [List.mem_singleton] at hn'
      subst e; subst hn'
      obtain ⟨c', hc', e⟩ := List.mem_map.mp hn
      refine hnew (List.any_eq_true.mpr ⟨c', hc', ?_⟩)
      rw [decide_eq_true_eq, e, (mkChannel_spec hm).1]
  have h1 : i < (c.channels.map fun ch => ch.waveName).length := by rw [List.length_map]; exact hi
  have h2 : j < (c.channels.map fun ch => ch.waveName).length := by rw [List.length_map]; exact hj
  refine (List.Nodup.getElem_inj_iff hnd (hi := h1) (hj := h2)).mp ?_
  rw [List.getElem_map, List.getElem_map]
  unfold Component.chan at e
  rw [List.getD_eq_getElem _ _ hi, List.getD_eq_getElem _ _ hj] at e
  exact e

/-- **C43.** In every bin exactly one imaginary part of a coupling is fixed to 0, so that exactly one
phase per bin is fixed. -/
theorem anchor_unique {I : Input} {cfg : Cfg} {M : Model} (h : readModel I cfg = some M)
    (hs : CfgSameBins I cfg) {b : ℕ} (hb : b < I.nrBins) :
    ∃ id k, Entry.coupIm id k b ∈ layout M ∧ IsAnchor M id k b ∧
      ∀ id' k', Entry.coupIm id' k' b ∈ layout M → IsAnchor M id' k' b → id' = id ∧ k' = k := by
  have hr := readModel_ok h
  obtain ⟨a, _, ha⟩ := hr.anchor b hb
  obtain ⟨hw, hname, c, hget, _, ch, hch, hcn, hfirst⟩ := findAnchor_wave ha
  have hc : c ∈ M.comps := List.mem_of_getElem? hget
  have hlt : M.anchorComp.getD b 0 < M.comps.length := (List.getElem?_eq_some_iff.mp hget).1
  have hid : c.id = M.anchorComp.getD b 0 := by
    obtain ⟨h1, h2⟩ := comps_getD hr hlt
    rw [hget] at h2
    cases h2
    exact h1
  have hok := (hr.comps c hc).ok
  have hwn : (c.chan ch).waveName = (M.input.wavesOf b).getD (M.anchorWave.getD b 0) [] := by
    rw [hr.input, hname, hcn]
  obtain ⟨hat, hbin⟩ := hr.wf.waveAt c hc ch hch b (by rw [hr.input]; exact hb)
    (M.anchorWave.getD b 0) (by rw [hr.input]; exact hw) hwn
  -- the anchor channel is the first one of the component in the bin
  have hmin : ∀ j < c.channels.length, b ∈ (c.chan j).bins → ch ≤ j := by
    intro j hj hbj
    by_contra hlt
    cases hf : (List.range c.channels.length).find? fun j => decide (b ∈ (c.chan j).bins) with
    | none =>
      have := List.find?_eq_none.mp hf j (List.mem_range.mpr hj)
      simp [hbj] at this
    | some j0 =>
      rw [hf] at hfirst
      simp only [Option.getD_some] at hfirst
      subst hfirst
      obtain ⟨_, as, bs, he, hno⟩ := List.find?_eq_some_iff_append.mp hf
      have hjm : j ∈ as := by
        have hall : ∀ x ∈ j0 :: bs, j0 ≤ x := by
          intro x hx
          have hp : (as ++ j0 :: bs).Pairwise (· < ·) := by rw [← he]; exact List.pairwise_lt_range
          have hp2 := (List.pairwise_append.mp hp).2.1
          rcases List.mem_cons.mp hx with rfl | hx
          · exact le_rfl
          · exact le_of_lt ((List.pairwise_cons.mp hp2).1 x hx)
        have : j ∈ as ++ j0 :: bs := by rw [← he]; exact List.mem_range.mpr hj
        rcases List.mem_append.mp this with h | h
        · exact h
        · exact absurd (hall j h) hlt
      have := hno j hjm
      simp [hbj] at this
  -- its coupling
  have hk : c.maps.chanCoup.getD ch 0 < c.maps.nrCoup ∧
      b ∈ c.coupBins (c.maps.chanCoup.getD ch 0) := by
    obtain ⟨h1, _⟩ := used_in_layout h hs hc hch hbin
    unfold layout at h1
    rcases List.mem_append.mp h1 with h1 | h1
    · rcases List.mem_append.mp h1 with h1 | h1
      · rcases List.mem_append.mp h1 with h1 | h1
        · obtain ⟨c', hc', h1⟩ := List.mem_flatMap.mp h1
          obtain ⟨k, hk, b', hb', he | he⟩ := mem_coupEntries.mp h1
          · simp only [Entry.coupRe.injEq] at he
            obtain ⟨e1, e2, e3⟩ := he
            have := hr.wf.eq_of_id hc hc' e1
            subst this; subst e2; subst e3
            exact ⟨hk, hb'⟩
          · cases he
        · obtain ⟨c', _, h1⟩ := List.mem_flatMap.mp h1
          unfold brEntries at h1
          obtain ⟨k, _, h1⟩ := List.mem_flatMap.mp h1
          split at h1
          · cases h1
          · simp at h1
      · obtain ⟨c', _, h1⟩ := List.mem_flatMap.mp h1
        obtain ⟨_, _, h1⟩ := mem_parEntries.mp h1
        cases h1
    · cases hm : M.fsmd with
      | none => rw [hm] at h1; cases h1
      | some f =>
        rw [hm] at h1
        obtain ⟨_, _, _, _, h1⟩ := mem_fsmdEntries.mp h1
        cases h1
  obtain ⟨hm1, hm2⟩ := chanCoup_master h hs hc hk.1
  -- the master channel of the coupling is the anchor channel
  have hmaster : c.maps.fromCoup.getD (c.maps.chanCoup.getD ch 0) 0 = ch := by
    have h1 : ch ≤ c.maps.fromCoup.getD (c.maps.chanCoup.getD ch 0) 0 := hmin _ hm1 hk.2
    have h2 : c.maps.fromCoup.getD (c.maps.chanCoup.getD ch 0) 0 ≤ ch := by
      by_cases hbr : cfg.useBranchings = true ∧ c.channels.length > 1
      · exact ((mapsBr_of h hs hbr.1 hc hbr.2).master ch (by rw [chanList_length]; exact hch)).1
      · have hm := maps_plain_of h hc (by
          by_cases hu : cfg.useBranchings = true
          · exact Or.inr (Nat.le_of_not_lt (fun h => hbr ⟨hu, h⟩))
          · exact Or.inl (by simpa using hu))
        have e1 : ∀ i < c.channels.length, c.maps.chanCoup.getD i 0 = i := by
          intro i hi
          rw [hm]; dsimp only
          rw [List.getD_eq_getElem _ _ (by rw [List.length_range]; exact hi), List.getElem_range]
        have e2 : ∀ i < c.channels.length, c.maps.fromCoup.getD i 0 = i := by
          intro i hi
          rw [hm]; dsimp only
          rw [List.getD_eq_getElem _ _ (by rw [List.length_range]; exact hi), List.getElem_range]
        rw [e1 ch hch, e2 ch hch]
    omega
  refine ⟨M.anchorComp.getD b 0, c.maps.chanCoup.getD ch 0, ?_, ⟨c, hget, rfl, ?_⟩, ?_⟩
  · rw [← hid]
    exact (used_in_layout h hs hc hch hbin).2.1
  · rw [hmaster]; exact hat
  · rintro id' k' hin ⟨c', hget', hid', hat'⟩
    subst hid'
    rw [hget] at hget'
    cases hget'
    refine ⟨rfl, ?_⟩
    -- `k'` is a coupling of the component
    have hk' : k' < c.maps.nrCoup := by
      unfold layout at hin
      rcases List.mem_append.mp hin with h1 | h1
      · rcases List.mem_append.mp h1 with h1 | h1
        · rcases List.mem_append.mp h1 with h1 | h1
          · obtain ⟨c', hc', h1⟩ := List.mem_flatMap.mp h1
            obtain ⟨k, hk, b', hb', he | he⟩ := mem_coupEntries.mp h1
            · cases he
            · simp only [Entry.coupIm.injEq] at he
              obtain ⟨e1, e2, e3⟩ := he
              rw [← hid] at e1
              have := hr.wf.eq_of_id hc hc' e1
              subst this; subst e2
              exact hk
          · obtain ⟨c', _, h1⟩ := List.mem_flatMap.mp h1
            unfold brEntries at h1
            obtain ⟨k, _, h1⟩ := List.mem_flatMap.mp h1
            split at h1
            · cases h1
            · simp at h1
        · obtain ⟨c', _, h1⟩ := List.mem_flatMap.mp h1
          obtain ⟨_, _, h1⟩ := mem_parEntries.mp h1
          cases h1
      · cases hm : M.fsmd with
        | none => rw [hm] at h1; cases h1
        | some f =>
          rw [hm] at h1
          obtain ⟨_, _, _, _, h1⟩ := mem_fsmdEntries.mp h1
          cases h1
    obtain ⟨q1, q2⟩ := chanCoup_master h hs hc hk'
    -- the wave of its master channel is the anchor wave
    have hsame : (c.chan (c.maps.fromCoup.getD k' 0)).waveName = (c.chan ch).waveName := by
      have hcok := hok.chans _ (chan_mem q1)
      rw [chanOk_waveAt hr.unique hcok hb] at hat'
      split at hat'
      · rename_i hmem
        have hix : (I.wavesOf b).idxOf (c.chan (c.maps.fromCoup.getD k' 0)).waveName
            = M.anchorWave.getD b 0 := by simpa using hat'
        rw [hcn, ← hname, ← hix, List.getD_eq_getElem _ _ (List.idxOf_lt_length_of_mem hmem),
          List.getElem_idxOf]
      · cases hat'
    have := chan_name_inj h hc q1 hch hsame
    rw [← q2, this]

end Rpwa.ResFit
