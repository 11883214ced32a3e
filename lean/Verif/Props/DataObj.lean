import Verif.Lemmas.DataObj
import Mathlib.Tactic.IntervalCases
/-!
# C107: what is accepted as data of a resonance fit (resonanceFit/data.cc)
-/
namespace Rpwa.DataObj

open Rpwa.Arrays
open Rpwa.FitData (invBase invArray invBase_eq invBase_lt)

theorem entryAt_ok (w : Mat ℝ) (i j : ℕ) (hi : i < w.rows) (hj : j < w.cols) : entryAt w i j = .ok (w.entry i j) := by
  unfold entryAt; rw [if_pos ⟨hi, hj⟩]

/-- the value of an element of the array of blocks. -/
def blockVal (nrWaves : List ℕ) (src : Arr (Mat ℝ)) : List ℕ → ℝ
  | [b, k, i, j, c, d] => (src.elem [b, k]).entry (invBase (nrWaves.getD b 0) i j + c) (invBase (nrWaves.getD b 0) i j + d)
  | _ => 0

theorem inRange_six {b k i j c d n m w v p q : ℕ} (h1 : b < n) (h2 : k < m) (h3 : i < w) (h4 : j < v) (h5 : c < p) (h6 : d < q) :
    inRange [b, k, i, j, c, d] [n, m, w, v, p, q] = true := by simp [inRange, *]

theorem storeBlock_ok (nrWaves : List ℕ) (src : Arr (Mat ℝ)) (w m b k n : ℕ) (hb : nrWaves[b]? = some n) (hk : k < m) (hn : n ≤ w)
    (hr : (src.elem [b, k]).rows = n * (n + 1)) (hc : (src.elem [b, k]).cols = n * (n + 1)) (x : ℕ × ℕ) (hx : x ∈ pairs n n) (t : Arr ℝ)
    (ht : t.shape = [nrWaves.length, m, w, w, 2, 2]) :
    ∃ t', storeBlock n (src.elem [b, k]) b k t x = .ok t' ∧ t'.shape = [nrWaves.length, m, w, w, 2, 2] ∧
      ∀ y, t'.elem y = @ite _ (∃ c d : Fin 2, y = [b, k, x.1, x.2, c, d]) (Classical.propDecidable _) (blockVal nrWaves src y) (t.elem y) := by
  have hx' := mem_pairs.1 hx
  obtain ⟨hb', hbn⟩ := List.getElem?_eq_some_iff.1 hb
  have hg : nrWaves.getD b 0 = n := by simp [hb', hbn]
  have hlt := invBase_lt n x.1 x.2 hx'.1 hx'.2
  have hR : ∀ c d, c < 2 → d < 2 → inRange [b, k, x.1, x.2, c, d] [nrWaves.length, m, w, w, 2, 2] = true := fun c d h1 h2 =>
    inRange_six hb' hk (by omega) (by omega) h1 h2
  unfold storeBlock
  dsimp only
  rw [entryAt_ok _ _ _ (by omega) (by omega), Outcome.ok_bind, put_ok _ _ _ (by rw [ht]; exact hR _ _ (by omega) (by omega)), Outcome.ok_bind,
    entryAt_ok _ _ _ (by omega) (by omega), Outcome.ok_bind, put_ok _ _ _ (by dsimp only; rw [ht]; exact hR _ _ (by omega) (by omega)), Outcome.ok_bind,
    entryAt_ok _ _ _ (by omega) (by omega), Outcome.ok_bind, put_ok _ _ _ (by dsimp only; rw [ht]; exact hR _ _ (by omega) (by omega)), Outcome.ok_bind,
    entryAt_ok _ _ _ (by omega) (by omega), Outcome.ok_bind, put_ok _ _ _ (by dsimp only; rw [ht]; exact hR _ _ (by omega) (by omega))]
  refine ⟨_, rfl, ht, fun y => ?_⟩
  dsimp only
  by_cases hy : ∃ c d : Fin 2, y = [b, k, x.1, x.2, c, d]
  · rw [if_pos hy]
    obtain ⟨c, d, rfl⟩ := hy
    unfold blockVal
    dsimp only
    rw [hg]
    fin_cases c <;> fin_cases d <;> simp
  · rw [if_neg hy]
    have e : ∀ c d : Fin 2, y ≠ [b, k, x.1, x.2, c, d] := fun c d h => hy ⟨c, d, h⟩
    have e' : ∀ c d : ℕ, c < 2 → d < 2 → y ≠ [b, k, x.1, x.2, c, d] := fun c d h1 h2 => e ⟨c, h1⟩ ⟨d, h2⟩
    rw [if_neg (e' 1 1 (by omega) (by omega)), if_neg (e' 1 0 (by omega) (by omega)), if_neg (e' 0 1 (by omega) (by omega)), if_neg (e' 0 0 (by omega) (by omega))]

theorem storeBlocks_ok (nrWaves : List ℕ) (src : Arr (Mat ℝ)) (w m : ℕ) (hs : src.shape = [nrWaves.length, m]) (hw : ∀ n ∈ nrWaves, n ≤ w)
    (hg : GoodMatrices nrWaves m (fun n => n * (n + 1)) src) (x : ℕ × ℕ) (hx : x ∈ pairs nrWaves.length m) (t : Arr ℝ)
    (ht : t.shape = [nrWaves.length, m, w, w, 2, 2]) :
    ∃ t', storeBlocks nrWaves src t x = .ok t' ∧ t'.shape = [nrWaves.length, m, w, w, 2, 2] ∧
      ∀ y, t'.elem y = @ite _ (¬ ((src.elem [x.1, x.2]).rows = 0 ∧ (src.elem [x.1, x.2]).cols = 0) ∧
          ∃ p ∈ pairs (nrWaves.getD x.1 0) (nrWaves.getD x.1 0), ∃ c d : Fin 2, y = [x.1, x.2, p.1, p.2, c, d])
        (Classical.propDecidable _) (blockVal nrWaves src y) (t.elem y) := by
  have hx' := mem_pairs.1 hx
  have hn : nrWaves[x.1]? = some (nrWaves[x.1]'hx'.1) := by simp [hx'.1]
  have hd : nrWaves.getD x.1 0 = nrWaves[x.1]'hx'.1 := by simp [hx'.1]
  unfold storeBlocks
  rw [at_ok src _ (by rw [hs]; exact (inRange_two _ _ _ _).2 hx'), Outcome.ok_bind]
  by_cases h0 : (src.elem [x.1, x.2]).rows = 0 ∧ (src.elem [x.1, x.2]).cols = 0
  · rw [if_pos h0]
    refine ⟨t, rfl, ht, fun y => ?_⟩
    rw [if_neg (fun h => h.1 h0)]
  · rw [if_neg h0, vecAt_ok _ _ _ hn, Outcome.ok_bind, hd]
    rcases hg x.1 _ x.2 hn hx'.2 with h | ⟨h1, h2⟩
    · exact absurd h h0
    obtain ⟨t', q1, q2, q3⟩ := foldl_touch [nrWaves.length, m, w, w, 2, 2] (blockVal nrWaves src)
      (fun (p : ℕ × ℕ) y => ∃ c d : Fin 2, y = [x.1, x.2, p.1, p.2, c, d]) _ (pairs (nrWaves[x.1]'hx'.1) (nrWaves[x.1]'hx'.1))
      (fun p hp a ha => storeBlock_ok nrWaves src w m x.1 x.2 _ hn hx'.2 (hw _ (List.getElem_mem _)) h1 h2 p hp a ha) t ht
    refine ⟨t', q1, q2, fun y => ?_⟩
    rw [q3]
    by_cases hy : ∃ p ∈ pairs (nrWaves[x.1]'hx'.1) (nrWaves[x.1]'hx'.1), ∃ c d : Fin 2, y = [x.1, x.2, p.1, p.2, c, d]
    · rw [if_pos hy, if_pos ⟨h0, hy⟩]
    · rw [if_neg hy, if_neg (fun h => hy h.2)]

/-- **C107.** Arguments that fit together are accepted: every argument is stored, every matrix is copied with its size, the array of blocks has for each pair
of waves the block of the weight matrix of the mass bin, zeros where a mass bin has no matrix, and no index is outside of an array or a matrix. -/
theorem construct_consistent {K : Type} (a : Args K) (w m : ℕ) (h : Consistent a w m) : ∃ D, construct a = .ok D ∧ IsData a w m D := by
  have hne : a.nrWaves ≠ [] := List.ne_nil_of_mem h.wMax.1
  obtain ⟨w', hw1, hw2, hw3⟩ := maxElement_spec a.nrWaves hne
  obtain ⟨m', hm1, hm2, hm3⟩ := maxElement_spec a.nrMassBins (List.ne_nil_of_mem h.mMax.1)
  obtain rfl : w' = w := Nat.le_antisymm (h.wMax.2 _ hw2) (hw3 _ h.wMax.1)
  obtain rfl : m' = m := Nat.le_antisymm (h.mMax.2 _ hm2) (hm3 _ h.mMax.1)
  have hlen : a.nrWaves.length ≠ 0 := fun h0 => hne (List.length_eq_zero_iff.1 h0)
  have hbase : baseData a = .ok (a.nrWaves.length, w', m') := by
    unfold baseData
    rw [if_neg hlen, hw1, Outcome.ok_bind, if_neg (by have := h.wPos; omega), hm1, Outcome.ok_bind, if_neg (by have := h.mPos; omega)]
    simp only [h.bins, h.names, h.centers, h.phaseSpace, checkSize_self, Outcome.ok_bind]
  obtain ⟨p, p1, p2, p3⟩ := copyMatrices_good a.nrWaves (fun n => 2 * n) m' _ h.ampsCov h.ampsMat
  obtain ⟨r, r1, r2, r3⟩ := copyMatrices_good a.nrWaves (fun n => n * (n + 1)) m' _ h.rhoCov h.rhoMat
  have hrg : GoodMatrices a.nrWaves m' (fun n => n * (n + 1)) r := by
    intro b n k hb hk
    obtain ⟨hb', _⟩ := List.getElem?_eq_some_iff.1 hb
    obtain ⟨⟨e1, e2, _⟩, _⟩ := r3 b k hb' hk
    rw [e1, e2]
    exact h.rhoMat b n k hb hk
  obtain ⟨t, t1, t2, t3⟩ := foldl_touch [a.nrWaves.length, m', w', w', 2, 2] (blockVal a.nrWaves r) _ _ (pairs a.nrWaves.length m')
    (fun x hx t ht => storeBlocks_ok a.nrWaves r w' m' r2 h.wMax.2 hrg x hx t ht)
    ((Arr.new (Ops.plain (0 : ℝ)) [0, 0, 0, 0, 0, 0]).resize (Ops.plain (0 : ℝ)) [a.nrWaves.length, m', w', w', 2, 2]) rfl
  refine ⟨⟨a, p, r, t⟩, ?_, ?_⟩
  · unfold construct
    simp only [hbase, Outcome.ok_bind, h.limits, h.amps, h.rho, h.pInt, h.pRe, h.pIm, h.pPh, h.sInt, h.sRe, h.sIm, h.sPh, checkSize_self, p1, r1, t1]
  · refine ⟨rfl, p2, fun b k hb hk => (p3 b k hb hk).1, r2, fun b k hb hk => (r3 b k hb hk).1, t2, ?_⟩
    intro b n k i j c d hb hk hij hj
    obtain ⟨hb', hbn⟩ := List.getElem?_eq_some_iff.1 hb
    have hg : a.nrWaves.getD b 0 = n := by simp [hb', hbn]
    obtain ⟨⟨e1, e2, _⟩, e4⟩ := r3 b k hb' hk
    dsimp only
    rw [t3]
    by_cases h0 : (a.spinDensityMatrixElementsCovMatInv.elem [b, k]).rows = 0
    · have h0' : (a.spinDensityMatrixElementsCovMatInv.elem [b, k]).cols = 0 := by
        rcases h.rhoMat b n k hb hk with h | ⟨h1, h2⟩
        · exact h.2
        · rw [h2, ← h1, h0]
      rw [if_pos h0, if_neg]
      · unfold Arr.resize Arr.new
        simp [Ops.plain]
      · rintro ⟨x, hx, hx0, q, hq, c', d', hy⟩
        simp only [List.cons.injEq] at hy
        obtain ⟨rfl, rfl, _⟩ := hy
        exact hx0 ⟨by rw [e1, h0], by rw [e2, h0']⟩
    · rw [if_neg h0, if_pos]
      · unfold blockVal
        dsimp only
        rw [hg, e4 (fun hh => h0 hh.1), invBase_eq n i j hij hj]
      · refine ⟨(b, k), mem_pairs.2 ⟨hb', hk⟩, fun hh => h0 (by rw [← e1]; exact hh.1), (i, j), ?_, c, d, rfl⟩
        dsimp only
        rw [hg]
        exact mem_pairs.2 ⟨by dsimp only; omega, hj⟩

/-- **C107.** Everything else is rejected, with the exception of the case below. -/
theorem construct_inconsistent {K : Type} (a : Args K) (hT : Typed a) (h : ∀ w m, ¬ Consistent a w m)
    (hm : a.nrMassBins ≠ [] ∨ ∀ n ∈ a.nrWaves, n = 0) : construct a = .terminate := by
  unfold construct
  by_cases hne : a.nrWaves = []
  · have : baseData a = .terminate := by unfold baseData; rw [if_pos (by simp [hne])]
    rw [this, Outcome.terminate_bind]
  have hlen : a.nrWaves.length ≠ 0 := fun h0 => hne (List.length_eq_zero_iff.1 h0)
  obtain ⟨w, hw1, hw2, hw3⟩ := maxElement_spec a.nrWaves hne
  by_cases hw0 : w = 0
  · have : baseData a = .terminate := by
      unfold baseData; rw [if_neg hlen, hw1, Outcome.ok_bind, if_pos hw0]
    rw [this, Outcome.terminate_bind]
  have hmne : a.nrMassBins ≠ [] := by
    rcases hm with hm | hm
    · exact hm
    · exact absurd (hm w hw2) hw0
  obtain ⟨m, hm1, hm2, hm3⟩ := maxElement_spec a.nrMassBins hmne
  by_cases hm0 : m = 0
  · have : baseData a = .terminate := by
      unfold baseData; rw [if_neg hlen, hw1, Outcome.ok_bind, if_neg hw0, hm1, Outcome.ok_bind, if_pos hm0]
    rw [this, Outcome.terminate_bind]
  have hC := h w m
  by_cases hB : a.nrMassBins.length = a.nrWaves.length ∧ a.waveNames.shape = [a.nrWaves.length, w] ∧ a.massBinCenters.shape = [a.nrWaves.length, m] ∧
      a.phaseSpaceIntegrals.shape = [a.nrWaves.length, m, w]
  · obtain ⟨b1, b2, b3, b4⟩ := hB
    have hbase : baseData a = .ok (a.nrWaves.length, w, m) := by
      unfold baseData
      rw [if_neg hlen, hw1, Outcome.ok_bind, if_neg hw0, hm1, Outcome.ok_bind, if_neg hm0]
      simp only [b1, b2, b3, b4, checkSize_self, Outcome.ok_bind]
    rw [hbase, Outcome.ok_bind]
    dsimp only
    by_cases c1 : a.wavePairMassBinLimits.shape = [a.nrWaves.length, w, w]
    swap
    · rw [checkSize_ne _ _ hT.limits c1]; rfl
    by_cases c2 : a.productionAmplitudes.shape = [a.nrWaves.length, m, w]
    swap
    · rw [c1, checkSize_self, Outcome.ok_bind, checkSize_ne _ _ hT.amps c2]; rfl
    rw [c1, checkSize_self, Outcome.ok_bind, c2, checkSize_self, Outcome.ok_bind]
    by_cases c3 : a.productionAmplitudesCovMatInv.shape = [a.nrWaves.length, m] ∧
        GoodMatrices a.nrWaves m (fun n => 2 * n) a.productionAmplitudesCovMatInv
    swap
    · rw [copyMatrices_bad _ _ _ _ hT.ampsCov c3]; rfl
    obtain ⟨p, p1, -⟩ := copyMatrices_good a.nrWaves (fun n => 2 * n) m _ c3.1 c3.2
    rw [p1, Outcome.ok_bind]
    by_cases c4 : a.spinDensityMatrixElements.shape = [a.nrWaves.length, m, w, w]
    swap
    · rw [checkSize_ne _ _ hT.rho c4]; rfl
    rw [c4, checkSize_self, Outcome.ok_bind]
    by_cases c5 : a.spinDensityMatrixElementsCovMatInv.shape = [a.nrWaves.length, m] ∧
        GoodMatrices a.nrWaves m (fun n => n * (n + 1)) a.spinDensityMatrixElementsCovMatInv
    swap
    · rw [copyMatrices_bad _ _ _ _ hT.rhoCov c5]; rfl
    obtain ⟨r, r1, r2, r3⟩ := copyMatrices_good a.nrWaves (fun n => n * (n + 1)) m _ c5.1 c5.2
    have hrg : GoodMatrices a.nrWaves m (fun n => n * (n + 1)) r := by
      intro b n k hb hk
      obtain ⟨hb', _⟩ := List.getElem?_eq_some_iff.1 hb
      obtain ⟨⟨e1, e2, _⟩, _⟩ := r3 b k hb' hk
      rw [e1, e2]
      exact c5.2 b n k hb hk
    obtain ⟨t, t1, -⟩ := foldl_touch [a.nrWaves.length, m, w, w, 2, 2] (blockVal a.nrWaves r) _ _ (pairs a.nrWaves.length m)
      (fun x hx t ht => storeBlocks_ok a.nrWaves r w m r2 hw3 hrg x hx t ht)
      ((Arr.new (Ops.plain (0 : ℝ)) [0, 0, 0, 0, 0, 0]).resize (Ops.plain (0 : ℝ)) [a.nrWaves.length, m, w, w, 2, 2]) rfl
    rw [r1, Outcome.ok_bind, t1, Outcome.ok_bind]
    by_cases d1 : a.plottingIntensities.shape = [a.nrWaves.length, m, w]
    swap
    · rw [checkSize_ne _ _ hT.pInt d1]; rfl
    rw [d1, checkSize_self, Outcome.ok_bind]
    by_cases d2 : a.plottingReal.shape = [a.nrWaves.length, m, w, w]
    swap
    · rw [checkSize_ne _ _ hT.pRe d2]; rfl
    rw [d2, checkSize_self, Outcome.ok_bind]
    by_cases d3 : a.plottingImag.shape = [a.nrWaves.length, m, w, w]
    swap
    · rw [checkSize_ne _ _ hT.pIm d3]; rfl
    rw [d3, checkSize_self, Outcome.ok_bind]
    by_cases d4 : a.plottingPhases.shape = [a.nrWaves.length, m, w, w]
    swap
    · rw [checkSize_ne _ _ hT.pPh d4]; rfl
    rw [d4, checkSize_self, Outcome.ok_bind]
    by_cases d5 : a.sysIntensities.shape = [a.nrWaves.length, m, w]
    swap
    · rw [checkSize_ne _ _ hT.sInt d5]; rfl
    rw [d5, checkSize_self, Outcome.ok_bind]
    by_cases d6 : a.sysReal.shape = [a.nrWaves.length, m, w, w]
    swap
    · rw [checkSize_ne _ _ hT.sRe d6]; rfl
    rw [d6, checkSize_self, Outcome.ok_bind]
    by_cases d7 : a.sysImag.shape = [a.nrWaves.length, m, w, w]
    swap
    · rw [checkSize_ne _ _ hT.sIm d7]; rfl
    rw [d7, checkSize_self, Outcome.ok_bind]
    by_cases d8 : a.sysPhases.shape = [a.nrWaves.length, m, w, w]
    swap
    · rw [checkSize_ne _ _ hT.sPh d8]; rfl
    rw [d8, checkSize_self, Outcome.ok_bind]
    exact absurd ⟨b1, by omega, by omega, ⟨hw2, hw3⟩, ⟨hm2, hm3⟩, b2, b3, c1, b4, c2, c3.1, c4, c5.1, d1, d2, d3, d4, d5, d6, d7, d8, c3.2, c5.2⟩ hC
  · have : baseData a = .terminate := by
      unfold baseData
      rw [if_neg hlen, hw1, Outcome.ok_bind, if_neg hw0, hm1, Outcome.ok_bind, if_neg hm0, checkSize_self, Outcome.ok_bind]
      by_cases c2 : a.waveNames.shape = [a.nrWaves.length, w]
      swap
      · rw [checkSize_ne _ _ hT.names c2]; rfl
      rw [c2, checkSize_self, Outcome.ok_bind]
      by_cases c1 : a.nrMassBins.length = a.nrWaves.length
      swap
      · rw [checkSize_ne [a.nrWaves.length] [a.nrMassBins.length] rfl (by simpa using c1)]; rfl
      rw [c1, checkSize_self, Outcome.ok_bind]
      by_cases c3 : a.massBinCenters.shape = [a.nrWaves.length, m]
      swap
      · rw [checkSize_ne _ _ hT.centers c3]; rfl
      rw [c3, checkSize_self, Outcome.ok_bind]
      by_cases c4 : a.phaseSpaceIntegrals.shape = [a.nrWaves.length, m, w]
      swap
      · rw [checkSize_ne _ _ hT.phaseSpace c4]; rfl
      exact absurd ⟨c1, c2, c3, c4⟩ hB
    rw [this, Outcome.terminate_bind]

/-- **C107.** The exception: waves, but an empty list of numbers of mass bins: the largest element of an empty list is read. -/
theorem construct_noMassBins {K : Type} (a : Args K) (hm : a.nrMassBins = []) (n : ℕ) (hn : n ∈ a.nrWaves) (h0 : n ≠ 0) : construct a = .ub := by
  have hne : a.nrWaves ≠ [] := List.ne_nil_of_mem hn
  obtain ⟨w, hw1, hw2, hw3⟩ := maxElement_spec a.nrWaves hne
  have hlen : a.nrWaves.length ≠ 0 := fun h0 => hne (List.length_eq_zero_iff.1 h0)
  have hw0 : w ≠ 0 := fun h => h0 (by have := hw3 n hn; omega)
  have : baseData a = .ub := by
    unfold baseData
    rw [if_neg hlen, hw1, Outcome.ok_bind, if_neg hw0, hm]; rfl
  unfold construct
  rw [this, Outcome.ub_bind]

/-- **C107.** Only arguments that fit together are accepted. -/
theorem construct_accepts {K : Type} (a : Args K) (hT : Typed a) (D : Obj K) (hD : construct a = .ok D) :
    ∃ w m, Consistent a w m ∧ IsData a w m D := by
  by_cases h : ∃ w m, Consistent a w m
  · obtain ⟨w, m, h⟩ := h
    obtain ⟨D', h1, h2⟩ := construct_consistent a w m h
    rw [hD] at h1
    cases h1
    exact ⟨w, m, h, h2⟩
  · push Not at h
    by_cases hm : a.nrMassBins ≠ [] ∨ ∀ n ∈ a.nrWaves, n = 0
    · rw [construct_inconsistent a hT h hm] at hD; cases hD
    · push Not at hm
      obtain ⟨h1, n, h2, h3⟩ := hm
      rw [construct_noMassBins a h1 n h2 h3] at hD; cases hD

/-- **C107.** Whoever reads an accepted object at a mass bin and waves of a bin stays inside of all arrays. -/
theorem reads_defined {K : Type} (a : Args K) (hT : Typed a) (D : Obj K) (hD : construct a = .ok D) (b n k c : ℕ) (hb : a.nrWaves[b]? = some n)
    (hc : a.nrMassBins[b]? = some c) (hk : k < c) (i j : ℕ) (hi : i < n) (hj : j < n) (u v : Fin 2) :
    D.args.waveNames.at [b, i] = .ok (a.waveNames.elem [b, i]) ∧
    D.args.massBinCenters.at [b, k] = .ok (a.massBinCenters.elem [b, k]) ∧
    D.args.wavePairMassBinLimits.at [b, i, j] = .ok (a.wavePairMassBinLimits.elem [b, i, j]) ∧
    D.args.phaseSpaceIntegrals.at [b, k, i] = .ok (a.phaseSpaceIntegrals.elem [b, k, i]) ∧
    D.args.productionAmplitudes.at [b, k, i] = .ok (a.productionAmplitudes.elem [b, k, i]) ∧
    D.args.spinDensityMatrixElements.at [b, k, i, j] = .ok (a.spinDensityMatrixElements.elem [b, k, i, j]) ∧
    D.args.plottingIntensities.at [b, k, i] = .ok (a.plottingIntensities.elem [b, k, i]) ∧
    D.args.plottingReal.at [b, k, i, j] = .ok (a.plottingReal.elem [b, k, i, j]) ∧
    D.args.plottingImag.at [b, k, i, j] = .ok (a.plottingImag.elem [b, k, i, j]) ∧
    D.args.plottingPhases.at [b, k, i, j] = .ok (a.plottingPhases.elem [b, k, i, j]) ∧
    D.args.sysIntensities.at [b, k, i] = .ok (a.sysIntensities.elem [b, k, i]) ∧
    D.args.sysReal.at [b, k, i, j] = .ok (a.sysReal.elem [b, k, i, j]) ∧
    D.args.sysImag.at [b, k, i, j] = .ok (a.sysImag.elem [b, k, i, j]) ∧
    D.args.sysPhases.at [b, k, i, j] = .ok (a.sysPhases.elem [b, k, i, j]) ∧
    (∃ V, D.prodCovInv.at [b, k] = .ok V ∧ SameMat V (a.productionAmplitudesCovMatInv.elem [b, k])) ∧
    (∃ V, D.rhoCovInv.at [b, k] = .ok V ∧ SameMat V (a.spinDensityMatrixElementsCovMatInv.elem [b, k])) ∧
    ∃ z, D.rhoCovInvArray.at [b, k, i, j, u, v] = .ok z := by
  obtain ⟨w, m, h, hI⟩ := construct_accepts a hT D hD
  obtain ⟨hb', rfl⟩ := List.getElem?_eq_some_iff.1 hb
  obtain ⟨hc', rfl⟩ := List.getElem?_eq_some_iff.1 hc
  have hw := h.wMax.2 _ (List.getElem_mem hb')
  have hm := h.mMax.2 _ (List.getElem_mem hc')
  have hi' : i < w := by omega
  have hj' : j < w := by omega
  have hk' : k < m := by omega
  have hu := u.2
  have hv := v.2
  rw [hI.copied]
  refine ⟨at_ok _ _ ?_, at_ok _ _ ?_, at_ok _ _ ?_, at_ok _ _ ?_, at_ok _ _ ?_, at_ok _ _ ?_, at_ok _ _ ?_, at_ok _ _ ?_, at_ok _ _ ?_, at_ok _ _ ?_,
    at_ok _ _ ?_, at_ok _ _ ?_, at_ok _ _ ?_, at_ok _ _ ?_, ⟨_, at_ok _ _ ?_, hI.ampsMat b k hb' hk'⟩, ⟨_, at_ok _ _ ?_, hI.rhoMat b k hb' hk'⟩,
    ⟨_, at_ok _ _ ?_⟩⟩ <;>
  simp [h.names, h.centers, h.limits, h.phaseSpace, h.amps, h.rho, h.pInt, h.pRe, h.pIm, h.pPh, h.sInt, h.sRe, h.sIm, h.sPh, hI.ampsShape,
    hI.rhoShape, hI.arrShape, inRange, hi', hj', hk', hb', hu, hv]

/-- two bins, with one wave and two mass bins, and with two waves and one mass bin; no matrices of amplitudes, weights of spin-density matrices except
for the second mass bin. -/
noncomputable def exArgs : Args ℂ where
  nrWaves := [1, 2]
  waveNames := ⟨[2, 2], fun _ => "w"⟩
  nrMassBins := [2, 1]
  massBinCenters := ⟨[2, 2], fun _ => 1⟩
  wavePairMassBinLimits := ⟨[2, 2, 2], fun _ => (0, 0)⟩
  phaseSpaceIntegrals := ⟨[2, 2, 2], fun _ => 1⟩
  productionAmplitudes := ⟨[2, 2, 2], fun _ => 1⟩
  productionAmplitudesCovMatInv := ⟨[2, 2], fun _ => ⟨0, 0, fun _ _ => 0⟩⟩
  spinDensityMatrixElements := ⟨[2, 2, 2, 2], fun _ => 1⟩
  spinDensityMatrixElementsCovMatInv := ⟨[2, 2], fun x => if x = [0, 0] then ⟨2, 2, fun _ _ => 3⟩ else
    if x = [1, 0] then ⟨6, 6, fun i j => i + j⟩ else ⟨0, 0, fun _ _ => 0⟩⟩
  plottingIntensities := ⟨[2, 2, 2], fun _ => (1, 1)⟩
  plottingReal := ⟨[2, 2, 2, 2], fun _ => (1, 1)⟩
  plottingImag := ⟨[2, 2, 2, 2], fun _ => (1, 1)⟩
  plottingPhases := ⟨[2, 2, 2, 2], fun _ => (1, 1)⟩
  sysIntensities := ⟨[2, 2, 2], fun _ => (1, 1)⟩
  sysReal := ⟨[2, 2, 2, 2], fun _ => (1, 1)⟩
  sysImag := ⟨[2, 2, 2, 2], fun _ => (1, 1)⟩
  sysPhases := ⟨[2, 2, 2, 2], fun _ => (1, 1)⟩

theorem exArgs_typed : Typed exArgs := by constructor <;> rfl

theorem exArgs_consistent : Consistent exArgs 2 2 where
  bins := rfl
  wPos := by decide
  mPos := by decide
  wMax := by decide
  mMax := by decide
  names := rfl
  centers := rfl
  limits := rfl
  phaseSpace := rfl
  amps := rfl
  ampsCov := rfl
  rho := rfl
  rhoCov := rfl
  pInt := rfl
  pRe := rfl
  pIm := rfl
  pPh := rfl
  sInt := rfl
  sRe := rfl
  sIm := rfl
  sPh := rfl
  ampsMat := fun _ _ _ _ _ => Or.inl ⟨rfl, rfl⟩
  rhoMat := by
    intro b n k hb hk
    obtain ⟨hb', hn⟩ := List.getElem?_eq_some_iff.1 hb
    have hb2 : b < 2 := hb'
    interval_cases b <;> interval_cases k <;> simp [exArgs] at hn ⊢ <;> (subst hn; simp)

/-- the last pair of waves of the second bin has the rows 4 and 5; the mass bin without matrix has zeros; a matrix of a wrong size, or one bin
less in the list of mass bins, is rejected. -/
theorem ex_dataObj :
    (∃ D, construct exArgs = .ok D ∧ D.rhoCovInvArray.elem [1, 0, 1, 1, 0, 1] = 9 ∧ D.rhoCovInvArray.elem [0, 1, 0, 0, 0, 0] = 0) ∧
    construct { exArgs with nrWaves := [2, 2] } = .terminate ∧ construct { exArgs with nrMassBins := [2] } = .terminate ∧
    construct { exArgs with nrMassBins := [] } = .ub := by
  refine ⟨?_, ?_, ?_, ?_⟩
  · obtain ⟨D, h1, h2⟩ := construct_consistent exArgs 2 2 exArgs_consistent
    refine ⟨D, h1, ?_, ?_⟩
    · have := h2.arr 1 2 0 1 1 0 1 rfl (by decide) (le_refl _) (by decide)
      refine Eq.trans this ?_
      simp [exArgs, FitCov.pairRow]
      norm_num
    · have := h2.arr 0 1 1 0 0 0 0 rfl (by decide) (le_refl _) (by decide)
      refine Eq.trans this ?_
      simp [exArgs]
  · refine construct_inconsistent _ (by constructor <;> rfl) (fun w m h => ?_) (Or.inl (by simp [exArgs]))
    have hm : 0 < m := h.mPos
    rcases h.rhoMat 0 2 0 rfl hm with h | h <;> simp [exArgs] at h
  · refine construct_inconsistent _ (by constructor <;> rfl) (fun w m h => ?_) (Or.inl (by simp))
    have := h.bins
    simp [exArgs] at this
  · exact construct_noMassBins _ rfl 1 (by simp [exArgs]) (by decide)

end Rpwa.DataObj
