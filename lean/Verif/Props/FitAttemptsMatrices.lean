import Verif.Props.FitAttempts
import Verif.Props.PwaFitMatrices
import Verif.Props.PwaFitStart
import Verif.Props.PwaFitEx
import Verif.Props.PwaNlopt
/-! # C88: the matrices that are added afterwards -/
namespace Rpwa.Attempts

open Rpwa.Lik Rpwa.Fit Rpwa.PwaFit

theorem ampName_toList (wl : WaveList) (s : Slot) :
    (ampName wl s).toList = 'V' :: ((Nat.repr s.1).toList ++ '_' :: (wl.name s.2.1 s.2.2).toList) := by
  unfold ampName
  simp only [String.toList_append, List.append_assoc]
  rfl

theorem ampName_inj (l : Lik) (hd : DistinctNames l) (s t : Slot) (hs : s.2 ∈ waveIxs l.fn.nW) (ht : t.2 ∈ waveIxs l.fn.nW)
    (h : (ampName l.waves s).toList = (ampName l.waves t).toList) : s = t := by
  have h1 : l.waves.name s.2.1 s.2.2 = l.waves.name t.2.1 t.2.2 := by
    apply String.toList_injective
    rw [← waveNameOf_ampName, ← waveNameOf_ampName, h]
  have h2 := hd s.2 hs t.2 ht h1
  rw [ampName_toList, ampName_toList, h1, List.cons.injEq, List.append_cancel_right_eq] at h
  have h3 : s.1 = t.1 := by
    have e1 := atoi_repr s.1 []
    have e2 := atoi_repr t.1 []
    rw [h.2, e2] at e1
    exact_mod_cast e1.symm
  exact Prod.ext h3 h2

/-- the names of the amplitudes of a stored fit are different. -/
theorem stored_names_nodup (l : Lik) (par : ℕ → ℝ) (slots : List Slot) (a : FillArgs) (hst : Stored l par slots a) (hd : DistinctNames l)
    (hp : PlainNames l) : a.prodAmpNames.Nodup := by
  rw [hst.hnames, List.nodup_append]
  have hmem : ∀ s ∈ slots, s.1 < l.fn.rank ∧ s.2.1 < 2 ∧ s.2.2 < l.fn.nW s.2.1 := by
    intro s hs
    have := (hst.hfree s).1 hs
    exact ⟨this.1, this.2.1, this.2.2.1⟩
  refine ⟨?_, by simp, ?_⟩
  · rw [List.nodup_map_iff_inj_on hst.hnodup]
    intro s hs t ht h
    exact ampName_inj l hd s t ((mem_waveIxs _ _).2 (hmem s hs).2) ((mem_waveIxs _ _).2 (hmem t ht).2) h
  · intro x hx y hy hxy
    obtain ⟨s, hs, rfl⟩ := List.mem_map.1 hx
    rw [List.mem_singleton] at hy
    obtain ⟨h1, h2, h3⟩ := hmem s hs
    have := (hp s.1 s.2.1 s.2.2 h1 h2 h3).2.2
    apply this
    show "flat".toList <:+: (ampName l.waves s).toList
    rw [hxy, hy]
    exact ⟨"V_".toList, [], rfl⟩

/-- the names of the parameters. -/
theorem param_names (l : Lik) (m : ℝ) (hm : l.fn.Matches l.waves l.pars m) (comp : List Comp) (hl : Layout l.fn l.pars comp) :
    (∀ (k : ℕ) (c : Comp), comp[k]? = some c → ∃ p : FitPar, l.pars.params[k]? = some p ∧ p.waveName = l.waves.name c.1.2.1 c.1.2.2 ∧
      p.rank = c.1.1 ∧ p.realPart = c.2) ∧
    ∃ p : FitPar, l.pars.params[comp.length]? = some p ∧ p.waveName = "flat" ∧ p.realPart = true := by
  obtain ⟨d0, empty, hb, hflat, hd⟩ := hm.built
  obtain ⟨k1, k2⟩ := fixWaves_keeps empty d0
  rw [← hd] at k1 k2
  have h0 : l.waves.nW 0 + l.waves.nW 1 ≠ 0 := by
    obtain ⟨r, h1, h2⟩ := buildParDataStruct_returns l.waves l.fn.rank m
    rw [hb] at h1; cases h1
    intro h0; simpa using h2.2 h0
  obtain ⟨comp', c1, c2, d', hd', c3, c4, c5, c6, c7, c8, _⟩ := parameters_enumerate_components l.waves l.fn.rank m h0
  rw [hb] at hd'; cases hd'
  have key : ∀ (empty : List String) (k : ℕ) (p : FitPar), d0.params[k]? = some p → ∃ p' : FitPar,
      (empty.foldl fixWave d0).params[k]? = some p' ∧ p'.waveName = p.waveName ∧ p'.rank = p.rank ∧ p'.realPart = p.realPart := by
    intro empty
    induction empty using List.reverseRecOn with
    | nil => intro k p hp; exact ⟨p, hp, rfl, rfl, rfl⟩
    | append_singleton l n ih =>
      intro k p hp
      obtain ⟨p', e1, e2, e3, e4⟩ := ih k p hp
      rw [List.foldl_append]
      simp only [List.foldl_cons, List.foldl_nil]
      by_cases hn : p'.waveName ≠ n
      · exact ⟨p', by simp [fixWave, e1, hn], e2, e3, e4⟩
      · push Not at hn
        exact ⟨{ p' with fixed := true }, by simp [fixWave, e1, hn], e2, e3, e4⟩
  constructor
  · intro k c hk
    have hf := (hl.free c).1 (List.mem_of_getElem? hk)
    have hk' : comp'[k]? = some c := by
      have e1 := hl.map c.1 hf.1 hf.2.1 hf.2.2.1
      have e2 := c8 c.1 hf.1 hf.2.1 (by rw [← hm.waves]; exact hf.2.2.1)
      rw [k1] at e1
      obtain ⟨s, b⟩ := c
      cases b
      · exact (e2.2 k).1 ((e1.2 k).2 hk)
      · exact (e2.1 k).1 ((e1.1 k).2 hk)
    obtain ⟨p, p1, p2, p3, _, p5, _⟩ := c5 k c hk'
    obtain ⟨p', q1, q2, q3, q4⟩ := key empty k p p1
    rw [← hd] at q1
    exact ⟨p', q1, q2.trans p2, q3.trans p3, q4.trans p5⟩
  · obtain ⟨p, p1, p2, _, p4⟩ := c6
    obtain ⟨p', q1, q2, q3, q4⟩ := key empty comp'.length p p1
    rw [← hd] at q1
    have hlen : comp'.length = comp.length := by
      have := hl.nmb
      omega
    rw [hlen] at q1
    exact ⟨p', q1, q2.trans p2, q4.trans p4⟩

/-- **C88, parameters are read back.** From the result of a fit every parameter of the likelihood is read back. -/
theorem parsOf_fit (l : Lik) (m : ℝ) (hm : l.fn.Matches l.waves l.pars m) (hd : DistinctNames l) (hp : PlainNames l) (o : Options)
    (bin : List (Name × ℝ × ℝ)) (par : ℕ → ℝ) (v : ℝ) (cov : ℕ → ℕ → ℝ) (c h : Bool) :
    (parsOf l (FitResult.new.fillA (fillFitResult l o bin par v cov c h))).length = l.pars.nmbPars ∧
    ∀ k < l.pars.nmbPars, (parsOf l (FitResult.new.fillA (fillFitResult l o bin par v cov c h))).getD k 0 = par k := by
  obtain ⟨comp, hl⟩ := layout_of_matches l.fn hm
  have hst := stored_of_fill_slots l m hm o bin par v cov c h
  obtain ⟨n1, p, n2, n3, n4⟩ := param_names l m hm comp hl
  have hnd := stored_names_nodup l par _ _ hst hd hp
  set a := fillFitResult l o bin par v cov c h with ha
  set r := FitResult.new.fillA a with hr
  have hnames : r.prodAmpNames = a.prodAmpNames := rfl
  have hamps : r.prodAmps = a.prodAmps := rfl
  refine ⟨by unfold parsOf; rw [List.length_map, hl.len], ?_⟩
  intro k hk
  rw [hl.nmb] at hk
  rcases Nat.lt_succ_iff_lt_or_eq.1 hk with hk | hk
  · obtain ⟨c, hc⟩ : ∃ c, comp[k]? = some c := ⟨_, List.getElem?_eq_getElem hk⟩
    obtain ⟨q, q1, q2, q3, q4⟩ := n1 k c hc
    have hf := (hl.free c).1 (List.mem_of_getElem? hc)
    have hf' : c.1 ∈ ampSlots l.fn.rank l.fn.nW := (hst.hfree c.1).2 ⟨hf.1, hf.2.1, hf.2.2.1, hf.2.2.2.1, fun e => by cases e⟩
    obtain ⟨i, hi⟩ := List.getElem?_of_mem hf'
    have hi2 : r.prodAmpNames[i]? = some (ampName l.waves c.1).toList := by
      rw [hnames, hst.hnames, List.getElem?_append_left (by simpa using (List.getElem?_eq_some_iff.1 hi).1), List.getElem?_map, hi]
      rfl
    obtain ⟨w1, w2, w3⟩ := hp c.1.1 c.1.2.1 c.1.2.2 hf.1 hf.2.1 hf.2.2.1
    obtain ⟨z1, z2⟩ := fitParameter_stored r i _ hi2 (hnames ▸ hnd) w1 w2 w3
    have hne : q.waveName ≠ "flat" := by
      intro hc'
      apply w3
      show "flat".toList <:+: (ampName l.waves c.1).toList
      rw [ampName_toList, ← q2, hc']
      exact ⟨'V' :: ((Nat.repr c.1.1).toList ++ ['_']), [], by simp⟩
    have hname : q.parName.toList = (ampName l.waves c.1).toList ++ (if c.2 then "_RE".toList else "_IM".toList) := by
      rw [ampName_toList]
      unfold FitPar.parName
      rw [if_pos hne, q2, q3, q4]
      simp only [String.toList_append]
      have : (toString c.1.1).toList = (Nat.repr c.1.1).toList := rfl
      rw [this]
      cases c.2 <;> simp
    have hval : r.prodAmps i = l.fn.amps par c.1 := by rw [hamps]; exact hst.hamps i c.1 hi
    have hpar := hl.fromPar par k c hc
    unfold parsOf
    rw [List.getD_eq_getElem?_getD, List.getElem?_map, q1, Option.map_some, Option.getD_some, hname]
    unfold part at hpar
    cases hb : c.2
    · rw [hb] at hpar
      simp only [Bool.false_eq_true, if_false] at hpar ⊢
      rw [z2, hval]; exact hpar
    · rw [hb] at hpar
      simp only [if_true] at hpar ⊢
      rw [z1, hval]; exact hpar
  · subst hk
    have hi : r.prodAmpNames[(ampSlots l.fn.rank l.fn.nW).length]? = some "V_flat".toList := by
      rw [hnames, hst.hnames, List.getElem?_append_right (by simp)]
      simp
    have hname : p.parName.toList = "V_flat_RE".toList := by
      unfold FitPar.parName
      rw [if_neg (by rw [n3]; simp), n3, n4]
      rfl
    unfold parsOf
    rw [List.getD_eq_getElem?_getD, List.getElem?_map, n2, Option.map_some, Option.getD_some, hname,
      fitParameter_flat r _ hi (hnames ▸ hnd), hamps, hst.hflat]
    rw [Complex.ofReal_re]
    exact hl.fromFlat par

/-- the Hessian at parameters that agree. -/
theorem hessian_congr (l : Lik) (m : ℝ) (hm : l.fn.Matches l.waves l.pars m) (par par' : ℕ → ℝ) (h : ∀ k < l.pars.nmbPars, par k = par' k) :
    l.fn.hessian l.pars par = l.fn.hessian l.pars par' := by
  obtain ⟨comp, hl⟩ := layout_of_matches l.fn hm
  unfold LikData.hessian
  rw [copyFrom_congr hl par par' h]

/-- `fill` into a new object with other matrices, on data that were stored before. -/
theorem fillWith_fill (a : FillArgs) (c : Mat ℝ) (N A : Mat ℂ) (ps : List ℝ) (hc : c.nRows ≠ 0 ∧ c.nCols ≠ 0) (h : Bool) :
    fillWith FitResult.new (FitResult.new.fillA a) c N A ps =
      FitResult.new.fillA { a with cov := some c, normIntegral := some N, accNormIntegral := some A, phaseSpaceIntegral := some ps,
                                   hasHessian := h } := by
  unfold fillWith FitResult.fillA FitResult.fill
  simp only [hc, and_self, ne_eq, not_false_eq_true, if_true]

/-- **C88, covariance matrix and integrals added to a fit.** If the Hessian of the free parameters can be inverted, adding the matrices to
the result of a fit that was stored without them gives the result that this fit would have stored with them: the same data, the
integrals of the likelihood, and as covariance matrix the inverse of the Hessian at the parameters of the fit. -/
theorem addMatrices_fit (inv : ℕ → (ℕ → ℕ → ℝ) → (ℕ → ℕ → ℝ)) (hinv : Inverts inv) (eig : ℕ → (ℕ → ℕ → ℝ) → ℕ → (ℕ → ℝ) × ℝ) (l : Lik)
    (m : ℝ) (hm : l.fn.Matches l.waves l.pars m) (hfix : l.pars.nmbParsFixed = (l.pars.params.filter (·.fixed)).length)
    (hd : DistinctNames l) (hp : PlainNames l) (o : Options) (bin : List (Name × ℝ × ℝ)) (par : ℕ → ℝ) (v : ℝ) (cov : ℕ → ℕ → ℝ)
    (c h : Bool) (B : ℕ → ℕ → ℝ) (hB : InverseOnFree l.pars (l.fn.hessian l.pars par) B) :
    ∃ C, addMatrices inv eig l (some (integralMatrices l)) (FitResult.new.fillA (fillFitResult l o bin par v cov c h)) =
        .ok (FitResult.new.fillA (fillFitResult l { o with saveSpace := false } bin par v C c true)) ∧
      InverseOnFree l.pars (l.fn.hessian l.pars par) C ∧
      ∀ i j, i < l.pars.nmbPars → j < l.pars.nmbPars → LikData.fixedAt l.pars i = true ∨ LikData.fixedAt l.pars j = true → C i j = 0 := by
  obtain ⟨comp, hl⟩ := layout_of_matches l.fn hm
  obtain ⟨C, e1, e2, e3⟩ := covariance_partial inv hinv l.pars hl.len hfix _ B hB
  obtain ⟨M, hM, _, _⟩ := reduceMatrix_eq l.pars hl.len (le_of_eq hfix) (l.fn.hessian l.pars par)
  refine ⟨C, ?_, e2, e3⟩
  have hH := hessian_congr l m hm (fun i => (parsOf l (FitResult.new.fillA (fillFitResult l o bin par v cov c h))).getD i 0) par
    (parsOf_fit l m hm hd hp o bin par v cov c h).2
  unfold addMatrices
  simp only [hH]
  unfold hessianEigenVectors
  simp only [hM, Outcome.ok_bind, e1]
  have hn := hl.nmb
  rw [fillWith_fill _ _ _ _ _ ⟨show l.pars.nmbPars ≠ 0 by omega, show l.pars.nmbPars ≠ 0 by omega⟩ true]
  rfl

/-- therefore everything that C60 says about the integrals of a fit holds, too. -/
theorem addMatrices_integrals (inv : ℕ → (ℕ → ℕ → ℝ) → (ℕ → ℕ → ℝ)) (hinv : Inverts inv) (eig : ℕ → (ℕ → ℕ → ℝ) → ℕ → (ℕ → ℝ) × ℝ)
    (l : Lik) (m : ℝ) (hm : l.fn.Matches l.waves l.pars m) (hfix : l.pars.nmbParsFixed = (l.pars.params.filter (·.fixed)).length)
    (hd : DistinctNames l) (hp : PlainNames l) (hrank : 0 < l.fn.rank) (o : Options) (bin : List (Name × ℝ × ℝ)) (par : ℕ → ℝ) (v : ℝ)
    (cov : ℕ → ℕ → ℝ) (c h : Bool) (B : ℕ → ℕ → ℝ) (hB : InverseOnFree l.pars (l.fn.hessian l.pars par) B) :
    ∃ r C, addMatrices inv eig l (some (integralMatrices l)) (FitResult.new.fillA (fillFitResult l o bin par v cov c h)) = .ok r ∧
      StoredMatrices l (ampSlots l.fn.rank l.fn.nW) r ∧ r.cov = ⟨l.pars.nmbPars, l.pars.nmbPars, C⟩ ∧ r.covMatrixValid = true ∧
      InverseOnFree l.pars (l.fn.hessian l.pars par) C ∧ r.converged = c ∧ r.logLikelihood = v ∧ r.multibin = bin := by
  obtain ⟨C, e1, e2, _⟩ := addMatrices_fit inv hinv eig l m hm hfix hd hp o bin par v cov c h B hB
  obtain ⟨comp, hl⟩ := layout_of_matches l.fn hm
  have hn := hl.nmb
  refine ⟨_, C, e1, ?_, rfl, ?_, e2, rfl, rfl, rfl⟩
  · refine fill_matrices l m hm _ bin par v C c true rfl hrank hd ?_
    intro i hi hc
    obtain ⟨h1, h2⟩ := (mem_waveIxs _ _).1 hi
    apply (hp 0 i.1 i.2 hrank h1 h2).2.2
    rw [ampName_toList]
    simp only [hc]
    exact ⟨'V' :: ((Nat.repr 0).toList ++ ['_']), [], by simp⟩
  · show decide (l.pars.nmbPars ≠ 0 ∧ l.pars.nmbPars ≠ 0) = true
    rw [decide_eq_true_iff]; omega

/-- **C88, what `_pwaFit` returns with `keepMatricesOnlyOfBest`.** Let every fit return a result that belongs to some parameters of the
likelihood, as the two fit functions do, and let at least one converge.  Then the result of the best fit and that of the best converged
fit are stored with integrals and with the inverse of the Hessian at their own parameters; all others stay without matrices. -/
theorem pwaFits_keep (inv : ℕ → (ℕ → ℕ → ℝ) → (ℕ → ℕ → ℝ)) (hinv : Inverts inv) (eig : ℕ → (ℕ → ℕ → ℝ) → ℕ → (ℕ → ℝ) × ℝ) (l : Lik)
    (m : ℝ) (hm : l.fn.Matches l.waves l.pars m) (hfix : l.pars.nmbParsFixed = (l.pars.params.filter (·.fixed)).length)
    (hd : DistinctNames l) (hp : PlainNames l) (o : Options) (bin : List (Name × ℝ × ℝ)) (seeds : List ℕ)
    (fit : Lik → Options → ℕ → ℕ → Outcome FitResult) (par : ℕ → ℕ → ℝ) (val : ℕ → ℝ) (cov : ℕ → ℕ → ℕ → ℝ) (conv hess : ℕ → Bool)
    (hfit : ∀ k s, seeds[k]? = some s → fit l { o with saveSpace := true } k s =
      .ok (FitResult.new.fillA (fillFitResult l { o with saveSpace := true } bin (par k) (val k) (cov k) (conv k) (hess k))))
    (B : ℕ → ℕ → ℕ → ℝ) (hB : ∀ k < seeds.length, InverseOnFree l.pars (l.fn.hessian l.pars (par k)) (B k))
    (b v : ℕ) (hb : b < seeds.length ∧ ∀ k < seeds.length, val b ≤ val k ∧ (k < b → val b < val k))
    (hv : v < seeds.length ∧ conv v = true ∧ ∀ k < seeds.length, conv k = true → val v ≤ val k ∧ (k < v → val v < val k)) :
    ∃ rs, pwaFits inv eig (some l) fit o true seeds = .ok rs ∧ rs.length = seeds.length ∧
      ∀ k < seeds.length,
        (k = b ∨ k = v → ∃ C, InverseOnFree l.pars (l.fn.hessian l.pars (par k)) C ∧
          rs[k]? = some (FitResult.new.fillA (fillFitResult l { o with saveSpace := false } bin (par k) (val k) C (conv k) true))) ∧
        (k ≠ b → k ≠ v →
          rs[k]? = some (FitResult.new.fillA (fillFitResult l { o with saveSpace := true } bin (par k) (val k) (cov k) (conv k) (hess k)))) := by
  let raw : ℕ → FitResult := fun k =>
    FitResult.new.fillA (fillFitResult l { o with saveSpace := true } bin (par k) (val k) (cov k) (conv k) (hess k))
  let rs : List FitResult := (List.range seeds.length).map raw
  have hrs : ∀ k < seeds.length, rs[k]? = some (raw k) := by
    intro k hk
    show ((List.range seeds.length).map raw)[k]? = _
    rw [List.getElem?_map, List.getElem?_range hk]; rfl
  have hlen : rs.length = seeds.length := by show ((List.range seeds.length).map raw).length = _; simp
  have hinvs : ∀ (k : ℕ) (r : FitResult), rs[k]? = some r → k < seeds.length ∧ r = raw k := by
    intro k r h
    have hk := (List.getElem?_eq_some_iff.1 h).1
    rw [hlen] at hk
    rw [hrs k hk] at h
    exact ⟨hk, (Option.some.inj h).symm⟩
  have hF : Fits (fit l { o with saveSpace := true }) seeds rs := by
    refine ⟨hlen, ?_⟩
    intro k s hk
    exact ⟨raw k, hrs k (List.getElem?_eq_some_iff.1 hk).1, hfit k s hk⟩
  have hmb : FirstMin rs (fun _ => True) b := by
    refine ⟨raw b, hrs b hb.1, trivial, ?_⟩
    intro j r' hj _
    obtain ⟨hj1, rfl⟩ := hinvs j r' hj
    exact hb.2 j hj1
  have hmv : FirstMin rs (fun r => r.converged = true) v := by
    refine ⟨raw v, hrs v hv.1, hv.2.1, ?_⟩
    intro j r' hj hc
    obtain ⟨hj1, rfl⟩ := hinvs j r' hj
    exact hv.2.2 j hj1 hc
  have hadd : ∀ k < seeds.length, ∃ C, addMatrices inv eig l (some (integralMatrices l)) (raw k) =
        .ok (FitResult.new.fillA (fillFitResult l { o with saveSpace := false } bin (par k) (val k) C (conv k) true)) ∧
      InverseOnFree l.pars (l.fn.hessian l.pars (par k)) C := by
    intro k hk
    obtain ⟨C, e1, e2, _⟩ := addMatrices_fit inv hinv eig l m hm hfix hd hp { o with saveSpace := true } bin (par k) (val k) (cov k) (conv k)
      (hess k) (B k) (hB k hk)
    exact ⟨C, e1, e2⟩
  obtain ⟨Cb, b1, b2⟩ := hadd b hb.1
  obtain ⟨Cv, v1, v2⟩ := hadd v hv.1
  obtain ⟨f1, f2⟩ := fitAll_keep (addMatrices inv eig l (some (integralMatrices l))) _ seeds rs hF b v hmb hmv _ _ _ _ (hrs b hb.1) (hrs v hv.1) b1 v1
  refine ⟨_, f1, by rw [List.length_set, List.length_set, hlen], ?_⟩
  intro k hk
  have hk2 := f2 k _ (hrs k hk)
  constructor
  · intro h
    by_cases h1 : k = b
    · subst h1
      rw [if_pos rfl] at hk2
      exact ⟨Cb, b2, hk2⟩
    · have h2 : k = v := h.resolve_left h1
      subst h2
      rw [if_neg h1, if_pos rfl] at hk2
      exact ⟨Cv, v2, hk2⟩
  · intro h1 h2
    rw [if_neg h1, if_neg h2] at hk2
    exact hk2

/-- both fit functions return what `pwaFits_keep` asks for. -/
theorem pwaFit_is_fill (minimize : List Var → MinResult) (eig : ℕ → (ℕ → ℕ → ℝ) → ℕ → (ℕ → ℝ) × ℝ) (rnd : ℕ → ℝ) (l : Lik) (o : Options)
    (bin : List (Name × ℝ × ℝ)) (file : Option StartFile) (a : FillArgs) (h : pwaFit minimize eig rnd l o bin file = .ok a) :
    ∃ par v cov c hs, a = fillFitResult l o bin par v cov c hs ∧ v = l.fn.doEval par := by
  obtain ⟨start, par, _, _, h3, bad, _, ha⟩ := pwaFit_ok minimize eig rnd l o bin file a h
  exact ⟨par, _, _, _, _, ha, h3⟩

theorem pwaNloptFit_is_fill (optimize : List ℝ → Option NloptResult) (eig : ℕ → (ℕ → ℕ → ℝ) → ℕ → (ℕ → ℝ) × ℝ)
    (inv : ℕ → (ℕ → ℕ → ℝ) → (ℕ → ℕ → ℝ)) (rnd : ℕ → ℝ) (l : Lik) (o : Options) (bin : List (Name × ℝ × ℝ)) (file : Option StartFile)
    (a : FillArgs) (h : pwaNloptFit optimize eig inv rnd l o bin file = .ok a) :
    ∃ par v cov c hs, a = fillFitResult l o bin par v cov c hs ∧ v = l.fn.doEval par := by
  obtain ⟨r, par, _, _, h3, bad, cov, _, _, ha⟩ := pwaNloptFit_ok optimize eig inv rnd l o bin file a h
  exact ⟨par, _, _, _, _, ha, h3⟩

/-- `addCovarianceMatrix`: without integrals those of the result are kept. -/
theorem addCovariance_keeps (inv : ℕ → (ℕ → ℕ → ℝ) → (ℕ → ℕ → ℝ)) (eig : ℕ → (ℕ → ℕ → ℝ) → ℕ → (ℕ → ℝ) × ℝ) (l : Lik) (r r' : FitResult)
    (h : addMatrices inv eig l none r = .ok r') :
    r'.normIntegral = r.normIntegral ∧ r'.accNormIntegral = r.accNormIntegral ∧ r'.phaseSpaceIntegral = r.phaseSpaceIntegral ∧
      r'.prodAmps = r.prodAmps ∧ r'.prodAmpNames = r.prodAmpNames ∧ r'.nmbProdAmps = r.nmbProdAmps ∧ r'.covIdx = r.covIdx ∧
      r'.logLikelihood = r.logLikelihood ∧ r'.multibin = r.multibin ∧ r'.converged = r.converged ∧ r'.nmbEvents = r.nmbEvents ∧
      r'.normNmbEvents = r.normNmbEvents ∧ r'.rank = r.rank := by
  unfold addMatrices at h
  obtain ⟨_, _, h⟩ := Outcome.bind_eq_ok.1 h
  obtain ⟨_, _, h⟩ := Outcome.bind_eq_ok.1 h
  cases h
  exact ⟨rfl, rfl, rfl, rfl, rfl, rfl, rfl, rfl, rfl, rfl, rfl, rfl, rfl⟩

end Rpwa.Attempts
