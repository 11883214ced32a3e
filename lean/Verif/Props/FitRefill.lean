import Verif.Lemmas.FitFill
import Verif.Lemmas.FitNames
/-!
# C33: filling a fit result that already holds data -/
namespace Rpwa.Fit

/-- the waves of a freshly filled object: the waves of the amplitudes, each once. -/
theorem fill_fresh_waveNames (a : FillArgs) :
    (FitResult.new.fillA a).waveNames.Nodup ∧ ∀ n, n ∈ (FitResult.new.fillA a).waveNames ↔ ∃ p ∈ a.prodAmpNames, waveNameOf p = n := by
  have e : (FitResult.new.fillA a).waveNames = appear (a.prodAmpNames.map waveNameOf) [] := waveLoop_fst _ _ _ _
  rw [e]
  refine ⟨nodup_appear List.nodup_nil, fun n => ?_⟩
  rw [mem_appear]
  simp

/-- every amplitude is mapped to the position of its wave (when integrals are given). -/
theorem fill_fresh_indexMap (a : FillArgs) (h : a.normIntegral.isSome = true ∨ a.accNormIntegral.isSome = true) (i : ℕ) (n : Name)
    (hi : a.prodAmpNames[i]? = some n) : ∃ w, (FitResult.new.fillA a).normIntIndexMap i = some w ∧
      (FitResult.new.fillA a).waveNames[w]? = some (waveNameOf n) := by
  have e : (FitResult.new.fillA a).waveNames = appear (a.prodAmpNames.map waveNameOf) [] := waveLoop_fst _ _ _ _
  have hlt := (List.getElem?_eq_some_iff.1 hi).1
  have hb : (a.normIntegral.isSome || a.accNormIntegral.isSome) = true := by simpa using h
  have hn : a.prodAmpNames.getD (i - 0) [] = n := by rw [Nat.sub_zero, List.getD_eq_getElem?_getD, hi]; rfl
  refine ⟨(appear (a.prodAmpNames.map waveNameOf) []).idxOf (waveNameOf n), ?_, ?_⟩
  · unfold FitResult.fillA FitResult.fill
    simp only [hb, if_true]
    rw [waveLoop_snd, dif_pos (by omega), hn]
    rfl
  · rw [e]
    have hm : waveNameOf n ∈ appear (a.prodAmpNames.map waveNameOf) [] :=
      mem_appear.2 (.inr (List.mem_map.2 ⟨n, List.mem_of_getElem? hi, rfl⟩))
    rw [List.getElem?_eq_getElem (List.idxOf_lt_length_iff.2 hm)]; simp

/-- filling an object gives the same as filling a new one exactly when the wave names it holds are the first ones of the
new data and its index map has no entries beyond the new amplitudes. -/
theorem refill_eq_iff (r : FitResult) (a : FillArgs) (hlen : a.nmbProdAmps = a.prodAmpNames.length) :
    r.fillA a = FitResult.new.fillA a ↔
      r.waveNames <+: (FitResult.new.fillA a).waveNames ∧
      (a.normIntegral.isSome = true ∨ a.accNormIntegral.isSome = true → ∀ k, a.nmbProdAmps ≤ k → r.normIntIndexMap k = none) := by
  have e0 : (FitResult.new.fillA a).waveNames = appear (a.prodAmpNames.map waveNameOf) [] := waveLoop_fst _ _ _ _
  have e1 : (r.fillA a).waveNames = appear (a.prodAmpNames.map waveNameOf) r.waveNames := waveLoop_fst _ _ _ _
  have hmap : ∀ r : FitResult, ∀ k, (FitResult.waveLoop a.prodAmpNames 0 r.waveNames r.normIntIndexMap).2 k = if k < a.nmbProdAmps then
      some ((appear (a.prodAmpNames.map waveNameOf) r.waveNames).idxOf (waveNameOf (a.prodAmpNames.getD k []))) else r.normIntIndexMap k := by
    intro r k
    rw [waveLoop_snd, hlen]
    by_cases h : k < a.prodAmpNames.length
    · rw [dif_pos (by omega), if_pos h]; rfl
    · rw [dif_neg (by omega), if_neg h]
  have hbool : (a.normIntegral.isSome = true ∨ a.accNormIntegral.isSome = true) ↔ (a.normIntegral.isSome || a.accNormIntegral.isSome) = true := by simp
  constructor
  · intro h
    have hw : appear (a.prodAmpNames.map waveNameOf) r.waveNames = appear (a.prodAmpNames.map waveNameOf) [] := by
      rw [← e0, ← e1, h]
    refine ⟨?_, fun hi k hk => ?_⟩
    · rw [e0]; exact (appear_eq_iff _ _).1 hw
    · have h2 := congrFun (congrArg FitResult.normIntIndexMap h) k
      unfold FitResult.fillA FitResult.fill at h2
      simp only [hbool.1 hi, if_true, hmap, if_neg (show ¬ k < a.nmbProdAmps by omega)] at h2
      have h3 : FitResult.new.normIntIndexMap k = none := rfl
      rw [h3] at h2
      simp only at h2
      cases hr : r.normIntIndexMap k with
      | none => rfl
      | some v => rw [hr] at h2; simp at h2
  · rintro ⟨hp, hm⟩
    rw [e0] at hp
    have hw := (appear_eq_iff _ _).2 hp
    unfold FitResult.fillA FitResult.fill
    rw [FitResult.mk.injEq]
    refine ⟨rfl, rfl, rfl, rfl, rfl, rfl, rfl, rfl, ?_, rfl, rfl, rfl, rfl, rfl, rfl, ?_, rfl, rfl, rfl⟩
    · rw [waveLoop_fst, waveLoop_fst]; exact hw
    · by_cases hi : (a.normIntegral.isSome || a.accNormIntegral.isSome) = true
      · simp only [hi, if_true]
        funext k
        rw [hmap, hmap]
        by_cases hk : k < a.nmbProdAmps
        · simp only [if_pos hk]; rw [hw]; rfl
        · simp only [if_neg hk]
          rw [hm (hbool.2 hi) k (by omega)]
          rfl
      · simp only [if_neg hi]

/-- `reset` before `fill` always gives the new data only. -/
theorem reset_fill (r : FitResult) (a : FillArgs) : r.reset.fillA a = FitResult.new.fillA a := rfl

/-- refilling with amplitudes of the same names is clean. -/
theorem refill_same_names_partial (a a' : FillArgs) (hnames : a'.prodAmpNames = a.prodAmpNames) (hlen : a.nmbProdAmps = a.prodAmpNames.length)
    (hlen' : a'.nmbProdAmps = a'.prodAmpNames.length) : (FitResult.new.fillA a').fillA a = FitResult.new.fillA a := by
  rw [refill_eq_iff _ _ hlen]
  have e0 : (FitResult.new.fillA a).waveNames = appear (a.prodAmpNames.map waveNameOf) [] := waveLoop_fst _ _ _ _
  have e1 : (FitResult.new.fillA a').waveNames = appear (a'.prodAmpNames.map waveNameOf) [] := waveLoop_fst _ _ _ _
  refine ⟨by rw [e0, e1, hnames], fun _ k hk => ?_⟩
  have hk' : ¬ k < a'.prodAmpNames.length := by rw [hnames, ← hlen]; omega
  unfold FitResult.fillA FitResult.fill
  simp only
  split
  · beta_reduce
    rw [waveLoop_snd, dif_neg (by omega)]
    have : FitResult.new.normIntIndexMap k = none := rfl
    rw [this]
    simp only
    rw [if_neg (by omega)]
  · rfl

/-- a fit result copied with all its matrices is equal to the original. -/
theorem fillFrom_copy (a : FillArgs)
    (hcov : ∀ c, a.cov = some c → c.nRows ≠ 0 ∧ c.nCols ≠ 0) (hn : ∀ m, a.normIntegral = some m → m.nRows ≠ 0 ∨ m.nCols ≠ 0)
    (ha : ∀ m, a.accNormIntegral = some m → m.nRows ≠ 0 ∨ m.nCols ≠ 0) (hp : ∀ l, a.phaseSpaceIntegral = some l → l ≠ []) :
    FitResult.new.fillFrom (FitResult.new.fillA a) true true = FitResult.new.fillA a := by
  have hargs : (FitResult.new.fillA a).argsOf true true = { a with hasHessian := (FitResult.new.fillA a).hasHessian } := by
    unfold FitResult.argsOf
    rw [FillArgs.mk.injEq]
    refine ⟨rfl, rfl, rfl, rfl, rfl, rfl, rfl, rfl, ?_, rfl, rfl, ?_, ?_, ?_, rfl, rfl⟩
    · cases hc : a.cov with
      | none => simp [FitResult.fillA, FitResult.fill, hc]
      | some c => have := hcov c hc; simp [FitResult.fillA, FitResult.fill, hc, this]
    · cases hc : a.normIntegral with
      | none => simp [FitResult.fillA, FitResult.fill, hc, Mat.empty]
      | some m =>
        have := hn m hc
        simp only [FitResult.fillA, FitResult.fill, hc, Option.getD_some, Bool.true_and]
        rw [if_pos (by simpa using this)]
    · cases hc : a.accNormIntegral with
      | none => simp [FitResult.fillA, FitResult.fill, hc, Mat.empty]
      | some m =>
        have := ha m hc
        simp only [FitResult.fillA, FitResult.fill, hc, Option.getD_some, Bool.true_and]
        rw [if_pos (by simpa using this)]
    · cases hc : a.phaseSpaceIntegral with
      | none => simp [FitResult.fillA, FitResult.fill, hc]
      | some l => have := hp l hc; simp [FitResult.fillA, FitResult.fill, hc, this]
  unfold FitResult.fillFrom
  rw [hargs]
  unfold FitResult.fillA FitResult.fill
  rw [FitResult.mk.injEq]
  refine ⟨rfl, rfl, rfl, rfl, rfl, rfl, rfl, rfl, rfl, rfl, rfl, rfl, rfl, rfl, rfl, rfl, rfl, rfl, ?_⟩
  cases hc : a.cov with
  | none => rfl
  | some c => have := hcov c hc; simp [this]

/-- a fit result copied without its covariance or its integrals equals one filled with the other data only. -/
theorem fillFrom_select (a : FillArgs) (fc fi : Bool)
    (hcov : ∀ c, a.cov = some c → c.nRows ≠ 0 ∧ c.nCols ≠ 0) (hn : ∀ m, a.normIntegral = some m → m.nRows ≠ 0 ∨ m.nCols ≠ 0)
    (ha : ∀ m, a.accNormIntegral = some m → m.nRows ≠ 0 ∨ m.nCols ≠ 0) (hp : ∀ l, a.phaseSpaceIntegral = some l → l ≠ []) :
    FitResult.new.fillFrom (FitResult.new.fillA a) fc fi = FitResult.new.fillA { a with
      cov := if fc then a.cov else none
      normIntegral := if fi then a.normIntegral else none
      accNormIntegral := if fi then a.accNormIntegral else none
      phaseSpaceIntegral := if fi then a.phaseSpaceIntegral else none } := by
  have hargs : (FitResult.new.fillA a).argsOf fc fi = { a with
      cov := if fc then a.cov else none
      normIntegral := if fi then a.normIntegral else none
      accNormIntegral := if fi then a.accNormIntegral else none
      phaseSpaceIntegral := if fi then a.phaseSpaceIntegral else none
      hasHessian := (FitResult.new.fillA a).hasHessian } := by
    unfold FitResult.argsOf
    rw [FillArgs.mk.injEq]
    refine ⟨rfl, rfl, rfl, rfl, rfl, rfl, rfl, rfl, ?_, rfl, rfl, ?_, ?_, ?_, rfl, rfl⟩
    · cases fc
      · simp
      cases hc : a.cov with
      | none => simp [FitResult.fillA, FitResult.fill, hc]
      | some c => have := hcov c hc; simp [FitResult.fillA, FitResult.fill, hc, this]
    · cases fi
      · simp
      cases hc : a.normIntegral with
      | none => simp [FitResult.fillA, FitResult.fill, hc, Mat.empty]
      | some m =>
        have := hn m hc
        simp only [FitResult.fillA, FitResult.fill, hc, Option.getD_some, Bool.true_and]
        rw [if_pos (by simpa using this)]
        rfl
    · cases fi
      · simp
      cases hc : a.accNormIntegral with
      | none => simp [FitResult.fillA, FitResult.fill, hc, Mat.empty]
      | some m =>
        have := ha m hc
        simp only [FitResult.fillA, FitResult.fill, hc, Option.getD_some, Bool.true_and]
        rw [if_pos (by simpa using this)]
        rfl
    · cases fi
      · simp
      cases hc : a.phaseSpaceIntegral with
      | none => simp [FitResult.fillA, FitResult.fill, hc]
      | some l => have := hp l hc; simp [FitResult.fillA, FitResult.fill, hc, this]
  unfold FitResult.fillFrom
  rw [hargs]
  unfold FitResult.fillA FitResult.fill
  rw [FitResult.mk.injEq]
  refine ⟨rfl, rfl, rfl, rfl, rfl, rfl, rfl, rfl, rfl, rfl, rfl, rfl, rfl, rfl, rfl, rfl, rfl, rfl, ?_⟩
  cases fc
  · rfl
  cases hc : a.cov with
  | none => rfl
  | some c => have := hcov c hc; simp [this]

/-- the getters of a filled object give the data it was filled with; it counts as having a Hessian exactly if a covariance
matrix that is not empty was given, or an empty one and the flag. -/
theorem fill_fields (r : FitResult) (a : FillArgs) :
    (r.fillA a).nmbEvents = a.nmbEvents ∧ (r.fillA a).normNmbEvents = a.normNmbEvents ∧ (r.fillA a).multibin = a.multibin ∧
    (r.fillA a).logLikelihood = a.logLikelihood ∧ (r.fillA a).rank = a.rank ∧ (r.fillA a).nmbProdAmps = a.nmbProdAmps ∧
    (r.fillA a).prodAmps = a.prodAmps ∧ (r.fillA a).prodAmpNames = a.prodAmpNames ∧ (r.fillA a).converged = a.converged ∧
    (r.fillA a).nmbCovIdx = a.nmbCovIdx ∧ (r.fillA a).covIdx = a.covIdx ∧
    (∀ m, a.normIntegral = some m → (r.fillA a).normIntegral = m) ∧ (∀ m, a.accNormIntegral = some m → (r.fillA a).accNormIntegral = m) ∧
    (∀ l, a.phaseSpaceIntegral = some l → (r.fillA a).phaseSpaceIntegral = l) ∧ (∀ c, a.cov = some c → (r.fillA a).cov = c) ∧
    ((r.fillA a).covMatrixValid = true ↔ ∃ c, a.cov = some c ∧ c.nRows ≠ 0 ∧ c.nCols ≠ 0) ∧
    ((r.fillA a).hasHessian = true ↔ ∃ c, a.cov = some c ∧ ((c.nRows ≠ 0 ∧ c.nCols ≠ 0) ∨ a.hasHessian = true)) := by
  refine ⟨rfl, rfl, rfl, rfl, rfl, rfl, rfl, rfl, rfl, rfl, rfl, ?_, ?_, ?_, ?_, ?_, ?_⟩
  · intro m h; simp [FitResult.fillA, FitResult.fill, h]
  · intro m h; simp [FitResult.fillA, FitResult.fill, h]
  · intro m h; simp [FitResult.fillA, FitResult.fill, h]
  · intro m h; simp [FitResult.fillA, FitResult.fill, h]
  · cases h : a.cov <;> simp [FitResult.fillA, FitResult.fill, h]
  · cases h : a.cov with
    | none => simp [FitResult.fillA, FitResult.fill, h]
    | some c =>
      simp only [FitResult.fillA, FitResult.fill, h, Option.some.injEq, exists_eq_left']
      split_ifs with hc
      · simp [hc]
      · simp [hc]

/-- a wave that the new data do not contain stays in the list of waves: filling an object again with other waves is not
the same as filling a new one. -/
theorem refill_stale (r : FitResult) (a : FillArgs) (n : Name) (hn : n ∈ r.waveNames) (hnot : ∀ p ∈ a.prodAmpNames, waveNameOf p ≠ n) :
    n ∈ (r.fillA a).waveNames ∧ n ∉ (FitResult.new.fillA a).waveNames ∧ r.fillA a ≠ FitResult.new.fillA a := by
  have e1 : (r.fillA a).waveNames = appear (a.prodAmpNames.map waveNameOf) r.waveNames := waveLoop_fst _ _ _ _
  have h1 : n ∈ (r.fillA a).waveNames := by rw [e1, mem_appear]; exact .inl hn
  have h2 : n ∉ (FitResult.new.fillA a).waveNames := by
    intro h
    obtain ⟨p, hp, e⟩ := ((fill_fresh_waveNames a).2 n).1 h
    exact hnot p hp e
  exact ⟨h1, h2, fun e => h2 (e ▸ h1)⟩

/-- a fresh object filled with labelled amplitudes is labelled, if no wave name is contained in the name of an amplitude of
another wave. -/
theorem fill_labelled (a : FillArgs) (labels : List Label) (hn : a.prodAmpNames = labels.map Label.text) (hl : a.nmbProdAmps = labels.length)
    (hnd : labels.Nodup) (hflat : ∀ l ∈ labels, l.wave = .flat → l.rank = 0) (hg : ∀ l ∈ labels, ∀ w, l.wave = .pw w → w.Good)
    (hsep : ∀ l ∈ labels, ∀ l' ∈ labels, l.wave.text <:+: l'.text → l'.wave = l.wave) : Labelled (FitResult.new.fillA a) labels where
  names := hn
  count := hl
  nodup := hnd
  flat := hflat
  good := hg
  waves := by
    intro n hm
    obtain ⟨p, hp, e⟩ := ((fill_fresh_waveNames a).2 n).1 hm
    rw [hn] at hp
    obtain ⟨l, hl, rfl⟩ := List.mem_map.1 hp
    exact ⟨l, hl, by rw [← e, waveNameOf_text]⟩
  separate := hsep

end Rpwa.Fit
