import Verif.Lemmas.Covariance
import Verif.Props.Hessian
/-!
# C28 covariance matrix and Hessian eigenvectors, C29 normalised amplitudes -/
namespace Rpwa.Lik

open Finset Complex

/-! ## C28 -/

/-- **C28 (partial).** If the counter of fixed parameters agrees with the parameters, the covariance matrix exists, is the inverse of the
Hessian on the free parameters, and vanishes in rows and columns of fixed parameters. Missing: the counter is not updated when the
parameters of an empty wave are fixed, see `covariance_fails_after_empty_wave`. -/
theorem covariance_partial (inv : ℕ → (ℕ → ℕ → ℝ) → (ℕ → ℕ → ℝ)) (hinv : Inverts inv) (d : ParData) (hlen : d.params.length = d.nmbPars)
    (hfix : d.nmbParsFixed = (d.params.filter (·.fixed)).length) (H B : ℕ → ℕ → ℝ) (hB : InverseOnFree d H B) :
    ∃ C, covarianceMatrix inv d H = .ok C ∧ InverseOnFree d H C ∧
      ∀ i j, i < d.nmbPars → j < d.nmbPars → LikData.fixedAt d i = true ∨ LikData.fixedAt d j = true → C i j = 0 := by
  obtain ⟨M, hM, hM1, hM2⟩ := reduceMatrix_eq d hlen (le_of_eq hfix) H
  have hsum := free_add_fixed d hlen
  have hn : d.nmbPars - d.nmbParsFixed = (freeList d).length := by omega
  set G := freeList d with hG
  have hget : ∀ b, b < G.length → G[b]? = some (G.getD b 0) := by
    intro b hb; rw [getD_lt hb, List.getElem?_eq_getElem hb]
  have hmem : ∀ b, b < G.length → G.getD b 0 < d.nmbPars ∧ LikData.fixedAt d (G.getD b 0) = false := by
    intro b hb
    rw [← mem_freeList, getD_lt hb]; exact List.getElem_mem hb
  have hinj : ∀ a b, a < G.length → b < G.length → (G.getD a 0 = G.getD b 0 ↔ a = b) := by
    intro a b ha hb
    rw [getD_lt ha, getD_lt hb]
    exact List.Nodup.getElem_inj_iff (nodup_freeList d)
  have hMi : ∃ B', IsInverse G.length M B' := by
    refine ⟨fun a b => B (G.getD a 0) (G.getD b 0), ?_⟩
    intro a ha c hc
    have h := hB (G.getD a 0) (G.getD c 0) (hmem a ha).1 (hmem c hc).1 (hmem a ha).2 (hmem c hc).2
    rw [sum_free] at h
    rw [show (∑ j ∈ range G.length, M a j * B (G.getD j 0) (G.getD c 0)) =
      ∑ j ∈ range G.length, H (G.getD a 0) (G.getD j 0) * B (G.getD j 0) (G.getD c 0) from
        sum_congr rfl fun j hj => by rw [hM1 a j _ _ (hget a ha) (hget j (mem_range.1 hj))]]
    rw [h]
    simp only [hinj a c ha hc]
  have hI := hinv _ _ hMi
  have hE := expandMatrix_eq d (inv G.length M)
  refine ⟨expandMatrix d (inv G.length M), ?_, ?_, ?_⟩
  · unfold covarianceMatrix
    rw [hM, Outcome.ok_bind, hn]
  · intro i k hi hk hfi hfk
    obtain ⟨a, ha, hai⟩ := List.getElem_of_mem ((mem_freeList d i).2 ⟨hi, hfi⟩)
    obtain ⟨c, hc, hck⟩ := List.getElem_of_mem ((mem_freeList d k).2 ⟨hk, hfk⟩)
    have ha' : G[a]? = some i := by rw [List.getElem?_eq_getElem ha, hai]
    have hc' : G[c]? = some k := by rw [List.getElem?_eq_getElem hc, hck]
    rw [sum_free]
    have h := hI a ha c hc
    rw [show (∑ b ∈ range (freeList d).length, H i ((freeList d).getD b 0) * expandMatrix d (inv G.length M) ((freeList d).getD b 0) k) =
      ∑ j ∈ range G.length, M a j * inv G.length M j c from
        sum_congr rfl fun j hj => by
          rw [hM1 a j _ _ ha' (hget j (mem_range.1 hj)), hE.1 j c _ _ (hget j (mem_range.1 hj)) hc']]
    rw [h]
    have : i = k ↔ a = c := by rw [← hai, ← hck]; exact List.Nodup.getElem_inj_iff (nodup_freeList d)
    simp only [this]
  · intro i j hi hj hf
    refine hE.2 i j ?_
    rw [mem_freeList, mem_freeList]
    rcases hf with hf | hf
    · left; rintro ⟨_, h⟩; rw [hf] at h; cases h
    · right; rintro ⟨_, h⟩; rw [hf] at h; cases h

/-- the counter agrees after `init`. -/
theorem covariance_after_init (inv : ℕ → (ℕ → ℕ → ℝ) → (ℕ → ℕ → ℝ)) (hinv : Inverts inv) (wl : WaveList) (rank : ℕ) (m : ℝ) (d : ParData)
    (hd : buildParDataStruct wl rank m = .ok (some d)) (H B : ℕ → ℕ → ℝ) (hB : InverseOnFree d H B) :
    ∃ C, covarianceMatrix inv d H = .ok C ∧ InverseOnFree d H C ∧
      ∀ i j, i < d.nmbPars → j < d.nmbPars → LikData.fixedAt d i = true ∨ LikData.fixedAt d j = true → C i j = 0 := by
  have h : wl.nW 0 + wl.nW 1 ≠ 0 := by
    obtain ⟨r, h1, h2⟩ := buildParDataStruct_returns wl rank m
    rw [hd] at h1; cases h1
    intro h0; simpa using h2.2 h0
  obtain ⟨comp, _, _, d', hd', _, c4, _, _, c7, _⟩ := parameters_enumerate_components wl rank m h
  rw [hd] at hd'; cases hd'
  exact covariance_partial inv hinv d c4 c7 H B hB

/-- **C28 is false of the code in general.** As soon as one free parameter of an empty wave is fixed while loading the amplitudes
(`fixWave`), the matrix that is inverted has a row of zeros: it has no inverse, whatever the Hessian is. -/
theorem covariance_fails_after_empty_wave (wl : WaveList) (rank : ℕ) (m : ℝ) (d : ParData)
    (hd : buildParDataStruct wl rank m = .ok (some d)) (name : String) (p : FitPar) (hp : p ∈ d.params) (hname : p.waveName = name)
    (hfree : p.fixed = false) (H : ℕ → ℕ → ℝ) :
    ∃ M, reduceMatrix (fixWave d name) H = .ok M ∧
      ¬ ∃ B, IsInverse ((fixWave d name).nmbPars - (fixWave d name).nmbParsFixed) M B := by
  have h : wl.nW 0 + wl.nW 1 ≠ 0 := by
    obtain ⟨r, h1, h2⟩ := buildParDataStruct_returns wl rank m
    rw [hd] at h1; cases h1
    intro h0; simpa using h2.2 h0
  obtain ⟨comp, _, _, d', hd', _, c4, _, _, c7, _⟩ := parameters_enumerate_components wl rank m h
  rw [hd] at hd'; cases hd'
  have hlen : (fixWave d name).params.length = (fixWave d name).nmbPars := by simp [fixWave, c4]
  have hcount : ∀ l : List FitPar, (l.filter (·.fixed)).length ≤
      ((l.map fun p => if p.waveName ≠ name then p else { p with fixed := true }).filter (·.fixed)).length := by
    intro l
    induction l with
    | nil => simp
    | cons q l ih =>
      simp only [List.map_cons, List.filter_cons]
      by_cases hq : q.waveName = name
      · cases hqf : q.fixed <;> simp_all <;> omega
      · cases hqf : q.fixed <;> simp_all
  have hcount' : ∀ l : List FitPar, p ∈ l → (l.filter (·.fixed)).length <
      ((l.map fun p => if p.waveName ≠ name then p else { p with fixed := true }).filter (·.fixed)).length := by
    intro l hl
    obtain ⟨l1, l2, rfl⟩ := List.append_of_mem hl
    have h1 := hcount l1
    have h2 := hcount l2
    rw [List.map_append, List.filter_append, List.filter_append, List.length_append, List.length_append, List.map_cons]
    have e1 : (List.filter (fun x => x.fixed) (p :: l2)).length = (List.filter (fun x => x.fixed) l2).length := by
      rw [List.filter_cons, hfree]; rfl
    have e2 : ∀ l' : List FitPar, (List.filter (fun x => x.fixed) ((if p.waveName ≠ name then p else { p with fixed := true }) :: l')).length =
        (List.filter (fun x => x.fixed) l').length + 1 := by
      intro l'
      rw [if_neg (fun h => h hname), List.filter_cons]; simp
    rw [e1, e2]
    omega
  have hlt : (fixWave d name).nmbParsFixed < ((fixWave d name).params.filter (·.fixed)).length := by
    have := hcount' d.params hp
    simp only [fixWave]
    rw [c7]; exact this
  obtain ⟨M, hM, _, hM2⟩ := reduceMatrix_eq (fixWave d name) hlen (le_of_lt hlt) H
  refine ⟨M, hM, ?_⟩
  rintro ⟨B, hB⟩
  have hsum := free_add_fixed (fixWave d name) hlen
  have := hB (freeList (fixWave d name)).length (by omega) (freeList (fixWave d name)).length (by omega)
  rw [sum_eq_zero (fun j _ => by rw [hM2 _ _ (Or.inl (le_refl _)), zero_mul])] at this
  simp at this

/-- **C28, eigenvectors.** The eigenvectors returned for a Hessian whose rows and columns of fixed parameters vanish (C25) are
eigenvectors of the full matrix and have no component along fixed parameters. -/
theorem eigenvectors_partial (eig : ℕ → (ℕ → ℕ → ℝ) → ℕ → (ℕ → ℝ) × ℝ) (d : ParData) (hlen : d.params.length = d.nmbPars)
    (hfix : d.nmbParsFixed = (d.params.filter (·.fixed)).length) (H : ℕ → ℕ → ℝ)
    (hH : ∀ i j, i < d.nmbPars → j < d.nmbPars → LikData.fixedAt d i = true ∨ LikData.fixedAt d j = true → H i j = 0)
    (heig : ∀ n M i, i < n → IsEigen n M (eig n M i).1 (eig n M i).2) :
    ∃ E, hessianEigenVectors eig d H = .ok E ∧ E.length = (freeList d).length ∧
      ∀ vl ∈ E, IsEigen d.nmbPars H vl.1 vl.2 ∧ ∀ i < d.nmbPars, LikData.fixedAt d i = true → vl.1 i = 0 := by
  obtain ⟨M, hM, hM1, hM2⟩ := reduceMatrix_eq d hlen (le_of_eq hfix) H
  have hsum := free_add_fixed d hlen
  have hn : d.nmbPars - d.nmbParsFixed = (freeList d).length := by omega
  unfold hessianEigenVectors
  rw [hM, Outcome.ok_bind, hn]
  refine ⟨_, rfl, by simp, ?_⟩
  intro vl hvl
  simp only [List.mem_map, List.mem_range] at hvl
  obtain ⟨i, hi, rfl⟩ := hvl
  set n := (freeList d).length with hnn
  have hev := heig n M i hi
  set v := (eig n M i).1
  set lam := (eig n M i).2
  have hX := expandVector_eq d v
  have hzero : ∀ k, k < d.nmbPars → LikData.fixedAt d k = true → expandVector d v k = 0 := by
    intro k _ hf
    refine hX.2 k ?_
    rw [mem_freeList]; rintro ⟨_, h⟩; rw [hf] at h; cases h
  refine ⟨?_, hzero⟩
  intro k hk
  have hred : (∑ j ∈ range d.nmbPars, H k j * expandVector d v j) =
      ∑ j ∈ (range d.nmbPars).filter (fun j => LikData.fixedAt d j = false), H k j * expandVector d v j := by
    rw [sum_filter]
    refine sum_congr rfl fun j hj => ?_
    split
    · rfl
    · rename_i hf
      rw [hzero j (mem_range.1 hj) (by simpa using hf), mul_zero]
  simp only
  rw [hred]
  cases hkf : LikData.fixedAt d k with
  | true =>
    rw [hzero k hk hkf, mul_zero]
    refine sum_eq_zero fun j hj => ?_
    rw [hH k j hk (mem_range.1 (mem_filter.1 hj).1) (Or.inl hkf), zero_mul]
  | false =>
    obtain ⟨a, ha, hak⟩ := List.getElem_of_mem ((mem_freeList d k).2 ⟨hk, hkf⟩)
    have ha' : (freeList d)[a]? = some k := by rw [List.getElem?_eq_getElem ha, hak]
    rw [sum_free, hX.1 a k ha', ← hev a ha]
    refine sum_congr rfl fun b hb => ?_
    have hb' : (freeList d)[b]? = some ((freeList d).getD b 0) := by
      rw [getD_lt (mem_range.1 hb), List.getElem?_eq_getElem (mem_range.1 hb)]
    rw [hM1 a b _ _ ha' hb', hX.1 b _ hb']

/-- Non-vacuity of C28: two parameters, the first one fixed, the Hessian is 2 on the free one. -/
example : ∃ (d : ParData) (H B : ℕ → ℕ → ℝ), d.params.length = d.nmbPars ∧ d.nmbParsFixed = (d.params.filter (·.fixed)).length ∧
    LikData.fixedAt d 0 = true ∧ LikData.fixedAt d 1 = false ∧ d.nmbPars = 2 ∧ InverseOnFree d H B := by
  refine ⟨⟨2, [⟨"a", 0, 0, true, true⟩, ⟨"flat", 0, 0, false, true⟩], fun _ => (none, none), 1⟩, fun _ _ => 2, fun _ _ => 1 / 2, rfl, rfl, rfl, rfl, rfl, ?_⟩
  intro i k hi hk hfi hfk
  have hi1 : i = 1 := by
    by_contra hne
    have : i = 0 := by simp only at hi; omega
    subst this; cases hfi
  have hk1 : k = 1 := by
    by_contra hne
    have : k = 0 := by simp only at hk; omega
    subst this; cases hfk
  subst hi1 hk1
  rw [sum_filter]
  refine (show (∑ j ∈ range 2, _) = _ from ?_)
  rw [sum_range_succ, sum_range_succ, sum_range_zero, if_neg (by intro h; cases h), if_pos rfl]
  norm_num
  exact hfi

/-! ## C29 -/

theorem waveNorm_pos (M : WaveIx → WaveIx → ℂ) (i : WaveIx) : 0 < waveNorm M i := by
  unfold waveNorm
  split
  · exact one_pos
  · rename_i h
    exact lt_of_le_of_ne (Real.sqrt_nonneg _) (Ne.symm h)

/-- **C29.** Load the same data with and without normalised amplitudes. If the amplitudes of the normalised parametrisation are the
others times the square root of the event number and of the integral of the wave (flat amplitude: times the square root of the event
number), then the two negative log likelihoods differ by the constant `N log N`. -/
theorem normalized_likelihood (rank : ℕ) (nW : ℕ → ℕ) (N : ℕ) (hN : 0 < N) (amps : WaveIx → ℕ → ℂ) (ints : Ints) (totAcc cw : ℝ)
    (hdiag : ∀ i, (ints.norm i i).im = 0 ∧ 0 ≤ (ints.norm i i).re) (L0 L1 : LikData)
    (h0 : finishInit rank nW N amps ints totAcc false .flat cw = some L0)
    (h1 : finishInit rank nW N amps ints totAcc true .flat cw = some L1)
    (par par' : ℕ → ℝ) (hdef : L0.DefinedAt par)
    (hV : ∀ s : Slot, s.1 < rank → s.2.1 < 2 → s.2.2 < nW s.2.1 →
      L1.amps par' s = ((Real.sqrt N * waveNorm ints.norm (s.2.1, s.2.2) : ℝ) : ℂ) * L0.amps par s)
    (hf : L1.flat par' = Real.sqrt N * L0.flat par) :
    L1.doEval par' = L0.doEval par - N * Real.log N := by
  have hNr : (0 : ℝ) < N := by exact_mod_cast hN
  have hsq : Real.sqrt N * Real.sqrt N = N := Real.mul_self_sqrt hNr.le
  unfold finishInit at h0 h1
  simp only [Bool.false_eq_true, if_false, Option.some.injEq] at h0
  simp only [if_true] at h1
  split at h1
  · cases h1
  rename_i hload
  simp only [Option.some.injEq] at h1
  have hload' : ∀ i ∈ waveIxs nW, ∀ ev < N, ((normalizeAmps (ints.norm i i) N (amps i)).getD (fun _ => 0)) ev * (waveNorm ints.norm i : ℂ) = amps i ev := by
    intro i hi ev hev
    have hne : normalizeAmps (ints.norm i i) N (amps i) ≠ none := fun h => hload ⟨i, hi, h⟩
    unfold normalizeAmps at hne ⊢
    split at hne
    · exact absurd rfl hne
    rename_i hex
    rw [if_neg hex]
    simp only [Option.getD_some]
    by_cases hz : ints.norm i i = 0
    · have ha : amps i ev = 0 := by
        by_contra hc; exact hex ⟨ev, hev, hz, hc⟩
      rw [if_neg (fun h => h hz), ha, zero_mul]
    · rw [if_pos hz]
      have hpos : 0 < (ints.norm i i).re := by
        refine lt_of_le_of_ne (hdiag i).2 fun h => hz ?_
        exact Complex.ext h.symm (hdiag i).1
      have hs : Real.sqrt (ints.norm i i).re ≠ 0 := (Real.sqrt_pos.2 hpos).ne'
      have hw : waveNorm ints.norm i = Real.sqrt (ints.norm i i).re := by unfold waveNorm; rw [if_neg hs]
      rw [hw, div_mul_cancel₀]
      exact_mod_cast hs
  have hsum : ∀ ev < N, ∀ r < rank, ∀ e < 2, L1.ampSum (L1.amps par') ev r e = ((Real.sqrt N : ℝ) : ℂ) * L0.ampSum (L0.amps par) ev r e := by
    intro ev hev r hr e he
    subst h0 h1
    unfold LikData.ampSum
    simp only
    rw [mul_sum]
    refine sum_congr rfl fun w hw => ?_
    have hw := mem_range.1 hw
    have := hload' (e, w) ((mem_waveIxs nW (e, w)).2 ⟨he, hw⟩) ev hev
    rw [hV (r, e, w) hr he hw, ← this]
    simp only [ofReal_mul]
    ring
  have hsig : ∀ ev < N, L1.sigma (L1.amps par') (L1.flat par') ev = N * L0.sigma (L0.amps par) (L0.flat par) ev := by
    intro ev hev
    unfold LikData.sigma
    have er0 : L0.rank = rank := by rw [← h0]
    have er1 : L1.rank = rank := by rw [← h1]
    rw [er0, er1, hf, mul_add, mul_sum]
    congr 1
    · refine sum_congr rfl fun r hr => ?_
      rw [mul_sum]
      refine sum_congr rfl fun e he => ?_
      rw [hsum ev hev r (mem_range.1 hr) e (mem_range.1 he), normSq_mul, normSq_ofReal, hsq]
    · calc _ = (Real.sqrt N * Real.sqrt N) * (L0.flat par * L0.flat par) := by ring
        _ = _ := by rw [hsq]
  have hnf : L1.normFactor (L1.amps par') (L1.flat par') = N * L0.normFactor (L0.amps par) (L0.flat par) := by
    unfold LikData.normFactor
    have er0 : L0.rank = rank := by rw [← h0]
    have er1 : L1.rank = rank := by rw [← h1]
    have en0 : L0.nW = nW := by rw [← h0]
    have en1 : L1.nW = nW := by rw [← h1]
    have et0 : L0.totAcc = totAcc := by rw [← h0]
    have et1 : L1.totAcc = totAcc := by rw [← h1]
    have ea0 : L0.accMatrix = fun e i j => ints.acc (e, i) (e, j) := by rw [← h0]
    have ea1 : L1.accMatrix = fun e i j => (rescaleIntegrals nW ints).acc (e, i) (e, j) := by rw [← h1]
    rw [er0, er1, en0, en1, et0, et1, ea0, ea1, hf, mul_add, mul_sum]
    congr 1
    · refine sum_congr rfl fun r hr => ?_
      rw [mul_sum]
      refine sum_congr rfl fun e he => ?_
      rw [mul_sum]
      refine sum_congr rfl fun i hi => ?_
      rw [mul_sum]
      refine sum_congr rfl fun j hj => ?_
      have hr := mem_range.1 hr
      have he := mem_range.1 he
      have hi := mem_range.1 hi
      have hj := mem_range.1 hj
      simp only
      rw [hV (r, e, i) hr he hi, hV (r, e, j) hr he hj,
        rescale_acc nW ints (e, i) (e, j) ((mem_waveIxs _ _).2 ⟨he, hi⟩) ((mem_waveIxs _ _).2 ⟨he, hj⟩), ← re_ofReal_mul]
      congr 1
      have hi0 : (waveNorm ints.norm (e, i) : ℂ) ≠ 0 := by exact_mod_cast (waveNorm_pos _ _).ne'
      have hj0 : (waveNorm ints.norm (e, j) : ℂ) ≠ 0 := by exact_mod_cast (waveNorm_pos _ _).ne'
      have hsqc : ((Real.sqrt N : ℝ) : ℂ) * ((Real.sqrt N : ℝ) : ℂ) = ((N : ℝ) : ℂ) := by rw [← ofReal_mul, hsq]
      simp only [map_mul, conj_ofReal, ofReal_mul]
      rw [← hsqc]
      field_simp
    · calc _ = (Real.sqrt N * Real.sqrt N) * (L0.flat par * L0.flat par * totAcc) := by ring
        _ = _ := by rw [hsq]
  have e1 : L1.doEval par' = (∑ ev ∈ range N, -Real.log (N * L0.sigma (L0.amps par) (L0.flat par) ev))
      + N * L0.normFactor (L0.amps par) (L0.flat par) := by
    have ev1 : L1.nmbEvents = N := by rw [← h1]
    have eu1 : L1.nmbEvt = 1 := by rw [← h1]; rfl
    have ep1 : L1.prior = .flat := by rw [← h1]
    change L1.eval (L1.amps par') (L1.flat par') = _
    unfold LikData.eval LikData.priorValue
    rw [ev1, eu1, ep1, hnf, one_mul, add_zero]
    congr 1
    exact sum_congr rfl fun ev hev => by rw [hsig ev (mem_range.1 hev)]
  have ev0 : L0.nmbEvents = N := by rw [← h0]
  have e0 : L0.doEval par = (∑ ev ∈ range N, -Real.log (L0.sigma (L0.amps par) (L0.flat par) ev)) + N * L0.normFactor (L0.amps par) (L0.flat par) := by
    have eu0 : L0.nmbEvt = N := by rw [← h0]; rfl
    have ep0 : L0.prior = .flat := by rw [← h0]
    change L0.eval (L0.amps par) (L0.flat par) = _
    unfold LikData.eval LikData.priorValue
    rw [ev0, eu0, ep0, add_zero]
  rw [e1, e0]
  have : (∑ ev ∈ range N, -Real.log (N * L0.sigma (L0.amps par) (L0.flat par) ev)) =
      (∑ ev ∈ range N, -Real.log (L0.sigma (L0.amps par) (L0.flat par) ev)) - N * Real.log N := by
    have hc : (N : ℝ) * Real.log N = ∑ _ev ∈ range N, Real.log N := by rw [sum_const, card_range, nsmul_eq_mul]
    rw [hc, ← sum_sub_distrib]
    refine sum_congr rfl fun ev hev => ?_
    rw [Real.log_mul hNr.ne' (hdef.intensity ev (by rw [ev0]; exact mem_range.1 hev))]
    ring
  rw [this]
  ring

/-- **C29.** Every parameter array of one parametrisation has its counterpart in the other one, so that the minima correspond. -/
theorem normalized_counterpart (rank : ℕ) (nW : ℕ → ℕ) (N : ℕ) (hN : 0 < N) (amps : WaveIx → ℕ → ℂ) (ints : Ints) (totAcc cw : ℝ)
    (L0 L1 : LikData) (h0 : finishInit rank nW N amps ints totAcc false .flat cw = some L0)
    (h1 : finishInit rank nW N amps ints totAcc true .flat cw = some L1)
    (wl : WaveList) (d : ParData) (m : ℝ) (hm : L0.Matches wl d m) :
    (∀ par, ∃ par', (∀ s : Slot, s.1 < rank → s.2.1 < 2 → s.2.2 < nW s.2.1 →
      L1.amps par' s = ((Real.sqrt N * waveNorm ints.norm (s.2.1, s.2.2) : ℝ) : ℂ) * L0.amps par s) ∧ L1.flat par' = Real.sqrt N * L0.flat par) ∧
    (∀ par', ∃ par, (∀ s : Slot, s.1 < rank → s.2.1 < 2 → s.2.2 < nW s.2.1 →
      L1.amps par' s = ((Real.sqrt N * waveNorm ints.norm (s.2.1, s.2.2) : ℝ) : ℂ) * L0.amps par s) ∧ L1.flat par' = Real.sqrt N * L0.flat par) := by
  have hNr : (0 : ℝ) < N := by exact_mod_cast hN
  have hs0 : Real.sqrt N ≠ 0 := (Real.sqrt_pos.2 hNr).ne'
  unfold finishInit at h0 h1
  simp only [Bool.false_eq_true, if_false, Option.some.injEq] at h0
  simp only [if_true] at h1
  split at h1
  · cases h1
  simp only [Option.some.injEq] at h1
  have er0 : L0.rank = rank := by rw [← h0]
  have er1 : L1.rank = rank := by rw [← h1]
  have en0 : L0.nW = nW := by rw [← h0]
  have en1 : L1.nW = nW := by rw [← h1]
  obtain ⟨comp, hl⟩ := layout_of_matches L0 hm
  have hl1 := layout_transfer hl L1 (er1.trans er0.symm) (en1.trans en0.symm)
  have scale : ∀ (x : ℝ) (z : ℂ) (b : Bool), part ((x : ℂ) * z) b = x * part z b := by intro x z b; cases b <;> simp [part]
  constructor
  · intro par
    let a : Amps := fun s => ((Real.sqrt N * waveNorm ints.norm (s.2.1, s.2.2) : ℝ) : ℂ) * L0.amps par s
    have ha : RankCondition L1.rank L1.nW a := by
      intro s b hnf
      have hz := hl.fromZero par s b (by rw [er0, en0]; rw [er1, en1] at hnf; exact hnf)
      change part (L0.amps par s) b = 0 at hz
      rw [scale, hz, mul_zero]
    refine ⟨copyToParArray L1.rank L1.nW d a (Real.sqrt N * L0.flat par) (fun _ => 0), ?_, ?_⟩
    · intro s _ _ _
      unfold LikData.amps
      rw [layout_copyFrom_copyTo hl1 a ha]
      rfl
    · unfold LikData.flat
      rw [layout_copyFrom_copyTo hl1 a ha]
  · intro par'
    let a : Amps := fun s => ((1 / (Real.sqrt N * waveNorm ints.norm (s.2.1, s.2.2)) : ℝ) : ℂ) * L1.amps par' s
    have ha : RankCondition L0.rank L0.nW a := by
      intro s b hnf
      have hz := hl1.fromZero par' s b (by rw [er1, en1]; rw [er0, en0] at hnf; exact hnf)
      change part (L1.amps par' s) b = 0 at hz
      rw [scale, hz, mul_zero]
    refine ⟨copyToParArray L0.rank L0.nW d a (L1.flat par' / Real.sqrt N) (fun _ => 0), ?_, ?_⟩
    · intro s _ _ _
      have hx : Real.sqrt N * waveNorm ints.norm (s.2.1, s.2.2) ≠ 0 := mul_ne_zero hs0 (waveNorm_pos _ _).ne'
      have : L0.amps (copyToParArray L0.rank L0.nW d a (L1.flat par' / Real.sqrt N) (fun _ => 0)) s = a s := by
        unfold LikData.amps
        rw [layout_copyFrom_copyTo hl a ha]
      rw [this]
      simp only [a]
      rw [← mul_assoc, ← ofReal_mul, mul_one_div_cancel hx, ofReal_one, one_mul]
    · have : L0.flat (copyToParArray L0.rank L0.nW d a (L1.flat par' / Real.sqrt N) (fun _ => 0)) = L1.flat par' / Real.sqrt N := by
        unfold LikData.flat
        rw [layout_copyFrom_copyTo hl a ha]
      rw [this, mul_div_cancel₀ _ hs0]

/-- **C29, integrals.** After `finishInit` with normalised amplitudes the normalisation matrix has 1 on the diagonal (0 for an empty wave)
and `N_ij / sqrt(N_ii N_jj)` elsewhere. -/
theorem normalized_integrals (nW : ℕ → ℕ) (ints : Ints) (a b : WaveIx) (ha : a.1 < 2 ∧ a.2 < nW a.1) (hb : b.1 < 2 ∧ b.2 < nW b.1) :
    (rescaleIntegrals nW ints).norm a b = if a = b then (if ints.norm a a ≠ 0 then 1 else 0)
      else ints.norm a b / ((waveNorm ints.norm a * waveNorm ints.norm b : ℝ) : ℂ) :=
  rescale_norm nW ints a b ((mem_waveIxs _ _).2 ha) ((mem_waveIxs _ _).2 hb)

/-- Non-vacuity of C29: one wave with integral 4, one event. -/
example : ∃ (ints : Ints) (L0 L1 : LikData), (∀ i, (ints.norm i i).im = 0 ∧ 0 ≤ (ints.norm i i).re) ∧ ints.norm (1, 0) (1, 0) = 4 ∧
    finishInit 1 (fun e => if e = 1 then 1 else 0) 1 (fun _ _ => 2) ints 1 false .flat 1 = some L0 ∧
    finishInit 1 (fun e => if e = 1 then 1 else 0) 1 (fun _ _ => 2) ints 1 true .flat 1 = some L1 := by
  have h1 : ∃ L1, finishInit 1 (fun e => if e = 1 then 1 else 0) 1 (fun _ _ => 2) ⟨fun _ _ => 4, fun _ _ => 3⟩ 1 true .flat 1 = some L1 := by
    unfold finishInit
    simp only [if_true]
    rw [if_neg]
    · exact ⟨_, rfl⟩
    rintro ⟨i, _, hi⟩
    unfold normalizeAmps at hi
    rw [if_neg] at hi
    · cases hi
    · rintro ⟨_, _, h, _⟩
      norm_num at h
  obtain ⟨L1, h1⟩ := h1
  exact ⟨⟨fun _ _ => 4, fun _ _ => 3⟩, _, L1, fun i => by norm_num, rfl, rfl, h1⟩

end Rpwa.Lik
