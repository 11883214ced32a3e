import Verif.Lemmas.CudaGrid
/-! What the threads of each kernel compute. -/
namespace Rpwa.Cuda
open Rpwa.Lik

theorem sum_range_list {T : Type} [AddCommMonoid T] (n : ℕ) (f : ℕ → T) : ((List.range n).map f).sum = ∑ i ∈ Finset.range n, f i := by
  rw [← List.sum_toFinset f List.nodup_range]
  refine Finset.sum_congr ?_ fun _ _ => rfl
  ext i
  simp

theorem sum_flatMap_list {T ι κ : Type} [AddCommMonoid T] (l : List ι) (g : ι → List κ) (f : κ → T) :
    ((l.flatMap g).map f).sum = (l.map fun x => ((g x).map f).sum).sum := by
  induction l with
  | nil => rfl
  | cons a l ih => simp [List.flatMap_cons, ih]

theorem rankRefl_sum {T : Type} [AddCommMonoid T] (rank : ℕ) (f : ℕ × ℕ → T) :
    ((rankRefl rank).map f).sum = ∑ r ∈ Finset.range rank, ∑ e ∈ Finset.range 2, f (r, e) := by
  unfold rankRefl
  rw [sum_flatMap_list, sum_range_list]
  refine Finset.sum_congr rfl fun r _ => ?_
  rw [List.map_map, sum_range_list]
  rfl

/-- extent of the wave index. -/
abbrev wMax (L : LikData) : ℕ := max (L.nW 0) (L.nW 1)

theorem nW_eq (L : LikData) {e : ℕ} (he : e < 2) : nmbWavesRefl (L.nW 0) (L.nW 1) e = L.nW e := by
  unfold nmbWavesRefl
  split
  · rename_i h; rw [h]
  · rw [show e = 1 by omega]

theorem nW_le (L : LikData) {e : ℕ} (he : e < 2) : L.nW e ≤ wMax L := by
  rcases (by omega : e = 0 ∨ e = 1) with h | h <;> subst h
  · exact le_max_left _ _
  · exact le_max_right _ _

theorem slots_eq (L : LikData) : slots L.rank (nmbWavesRefl (L.nW 0) (L.nW 1)) = slots L.rank L.nW := by
  unfold slots
  refine List.flatMap_congr fun r _ => List.flatMap_congr fun e he => ?_
  rw [nW_eq L (List.mem_range.mp he)]

theorem mem_slots {L : LikData} {s : Slot} (h : s ∈ slots L.rank L.nW) : s.1 < L.rank ∧ s.2.1 < 2 ∧ s.2.2 < L.nW s.2.1 := by
  unfold slots at h
  obtain ⟨r, hr, h⟩ := List.mem_flatMap.mp h
  obtain ⟨e, he, h⟩ := List.mem_flatMap.mp h
  obtain ⟨w, hw, rfl⟩ := List.mem_map.mp h
  exact ⟨List.mem_range.mp hr, List.mem_range.mp he, List.mem_range.mp hw⟩

/-- production amplitudes on the device. -/
def HasProd (h : Heap) (p : ℕ) (L : LikData) (V : Amps) : Prop :=
  ∀ r e w, r < L.rank → e < 2 → w < L.nW e → h.get p ((r * 2 + e) * wMax L + w) = some (.cx (V (r, e, w)))

/-- decay amplitudes on the device. -/
def HasDecay (h : Heap) (p : ℕ) (L : LikData) : Prop :=
  ∀ e w n, e < 2 → w < L.nW e → n < L.nmbEvents → h.get p ((e * wMax L + w) * L.nmbEvents + n) = some (.cx (L.decayAmps e n w))

theorem ampProdSum_runs {h : Heap} {W : ℕ → Prop} {pP pD : ℕ} {L : LikData} {V : Amps} (hP : HasProd h pP L V) (hD : HasDecay h pD L)
    (wP : ¬ W pP) (wD : ¬ W pD) (s1 : L.rank * 2 * wMax L ≤ 2 ^ 32) (s2 : 2 * wMax L * L.nmbEvents ≤ 2 ^ 32) {r e n : ℕ} (hr : r < L.rank)
    (he : e < 2) (hn : n < L.nmbEvents) :
    Runs h W (ampProdSum pP pD L.nmbEvents L.rank (L.nW 0) (L.nW 1) (wMax L) r e n) [] (L.ampSum V n r e) := by
  unfold ampProdSum
  dsimp only
  rw [nW_eq L he]
  refine Runs.bind0 (runs_compLoop0 (fun w => V (r, e, w) * L.decayAmps e n w) _ ?_) ?_
  · intro w hw s
    have hw := List.mem_range.mp hw
    have hw' := lt_of_lt_of_le hw (nW_le L he)
    rw [(offset3 hr he hw' s1).1, (offset3 he hw' hn s2).1]
    refine Runs.bind0 (runs_load wP rfl (hP r e w hr he hw)) ?_
    refine Runs.bind0 (runs_load wD rfl (hD e w n he hw hn)) ?_
    exact .ret _
  · rw [sum_range_list]
    exact .ret _

/-- the real-data term of one event. -/
theorem likelihood_runs {h : Heap} {W : ℕ → Prop} {pP pD : ℕ} {L : LikData} {V : Amps} (hP : HasProd h pP L V) (hD : HasDecay h pD L)
    (wP : ¬ W pP) (wD : ¬ W pD) (s1 : L.rank * 2 * wMax L ≤ 2 ^ 32) (s2 : 2 * wMax L * L.nmbEvents ≤ 2 ^ 32) {n : ℕ} (hn : n < L.nmbEvents) :
    Runs h W ((rankRefl L.rank).foldlM (fun l re => do
      let amp ← ampProdSum pP pD L.nmbEvents L.rank (L.nW 0) (L.nW 1) (wMax L) re.1 re.2 n
      pure (compensatedSum (Complex.normSq amp) l)) ((0, 0) : ℝ × ℝ)) []
      (∑ r ∈ Finset.range L.rank, ∑ e ∈ Finset.range 2, Complex.normSq (L.ampSum V n r e), 0) := by
  rw [← rankRefl_sum L.rank fun re => Complex.normSq (L.ampSum V n re.1 re.2)]
  refine runs_compLoop0 _ _ ?_
  intro re hre s
  unfold rankRefl at hre
  obtain ⟨r, hr, hre⟩ := List.mem_flatMap.mp hre
  obtain ⟨e, he, rfl⟩ := List.mem_map.mp hre
  refine Runs.bind0 (ampProdSum_runs hP hD wP wD s1 s2 (List.mem_range.mp hr) (List.mem_range.mp he) hn) ?_
  exact .ret _

/-- events of thread `t` of `T`. -/
abbrev evts (N T t : ℕ) : Finset ℕ := (Finset.range N).filter fun j => j % T = t

theorem logLikelihood_runs {h : Heap} {pP pD out T t : ℕ} {L : LikData} {V : Amps} {flat : ℝ} (hP : HasProd h pP L V) (hD : HasDecay h pD L)
    (wP : pP ≠ out) (wD : pD ≠ out) (s1 : L.rank * 2 * wMax L ≤ 2 ^ 32) (s2 : 2 * wMax L * L.nmbEvents ≤ 2 ^ 32) (s3 : L.nmbEvents + T ≤ 2 ^ 32)
    (ht : t < T) {b : Block} (hb : h out = some b) (hl : b.len = T) :
    Runs h (· = out) (logLikelihoodKernel pP (flat * flat) pD L.nmbEvents L.rank (L.nW 0) (L.nW 1) (wMax L) out T t)
      [(out, t, .re (∑ n ∈ evts L.nmbEvents T t, -Real.log (L.sigma V flat n)))] () := by
  unfold logLikelihoodKernel
  obtain ⟨l, hrl, hnd, hmem⟩ := strided_spec (h := h) (W := (· = out)) t L.nmbEvents T ht s3
  refine Runs.bind0 hrl ?_
  refine Runs.bind0 (runs_compLoop0 (fun n => -Real.log (L.sigma V flat n)) l ?_) ?_
  · intro n hn s
    refine Runs.bind0 (likelihood_runs hP hD wP wD s1 s2 ((hmem n).mp hn).1) ?_
    dsimp only
    rw [compensatedSum_exact]
    exact .ret _
  · rw [sum_list_eq hnd hmem]
    exact runs_store _ rfl hb (hl ▸ ht)

theorem derivFlat_runs {h : Heap} {pL out T t N : ℕ} {flat : ℝ} {σ : ℕ → ℝ} (hL : ∀ n < N, h.get pL n = some (.re (σ n))) (wL : pL ≠ out)
    (s3 : N + T ≤ 2 ^ 32) (ht : t < T) {b : Block} (hb : h out = some b) (hl : b.len = T) :
    Runs h (· = out) (logLikelihoodDerivFlatKernel flat pL N out T t) [(out, t, .re (∑ n ∈ evts N T t, -(2 / σ n) * flat))] () := by
  unfold logLikelihoodDerivFlatKernel
  obtain ⟨l, hrl, hnd, hmem⟩ := strided_spec (h := h) (W := (· = out)) t N T ht s3
  refine Runs.bind0 hrl ?_
  refine Runs.bind0 (runs_compLoop0 (fun n => -(2 / σ n) * flat) l ?_) ?_
  · intro n hn s
    refine Runs.bind0 (runs_load (T := ℝ) wL rfl (hL n ((hmem n).mp hn).1)) ?_
    exact .ret _
  · rw [sum_list_eq hnd hmem]
    exact runs_store _ rfl hb (hl ▸ ht)

/-- position of `(iRank, iRefl, iEvt)` in `d_derivTerms`. -/
abbrev termPos (L : LikData) (re : ℕ × ℕ) (n : ℕ) : ℕ := (re.1 * 2 + re.2) * L.nmbEvents + n

theorem firstTerm_runs {h : Heap} {pP pD pT pL n : ℕ} {L : LikData} {V : Amps} {flat : ℝ} (hP : HasProd h pP L V) (hD : HasDecay h pD L)
    (wP : pP ≠ pT ∧ pP ≠ pL) (wD : pD ≠ pT ∧ pD ≠ pL) (s1 : L.rank * 2 * wMax L ≤ 2 ^ 32) (s2 : 2 * wMax L * L.nmbEvents ≤ 2 ^ 32)
    (s3 : L.rank * 2 * L.nmbEvents ≤ 2 ^ 32) (hn : n < L.nmbEvents) {bT bL : Block} (hT : h pT = some bT) (hTl : bT.len = L.rank * 2 * L.nmbEvents)
    (hL : h pL = some bL) (hLl : bL.len = L.nmbEvents) :
    Runs h (fun p => p = pT ∨ p = pL) (logLikelihoodDerivFirstTermKernel pP (flat * flat) pD L.nmbEvents L.rank (L.nW 0) (L.nW 1) (wMax L) pT pL n)
      ((rankRefl L.rank).map (fun re => (pT, termPos L re n, Val.cx (L.ampSum V n re.1 re.2))) ++ [(pL, n, .re (L.sigma V flat n))]) () := by
  unfold logLikelihoodDerivFirstTermKernel
  rw [if_pos hn]
  have wP' : ¬ (pP = pT ∨ pP = pL) := by tauto
  have wD' : ¬ (pD = pT ∨ pD = pL) := by tauto
  have e : (rankRefl L.rank).map (fun re => (pT, termPos L re n, Val.cx (L.ampSum V n re.1 re.2))) =
      (rankRefl L.rank).flatMap fun re => [(pT, termPos L re n, Val.cx (L.ampSum V n re.1 re.2))] := by
    induction rankRefl L.rank with
    | nil => rfl
    | cons a l ih => rw [List.map_cons, ih]; rfl
  rw [e]
  refine Runs.bind (runs_compLoop (fun re => Complex.normSq (L.ampSum V n re.1 re.2)) _ _ ?_) ?_
  · intro re hre s
    unfold rankRefl at hre
    obtain ⟨r, hr, hre⟩ := List.mem_flatMap.mp hre
    obtain ⟨e, he, rfl⟩ := List.mem_map.mp hre
    have hr := List.mem_range.mp hr
    have he := List.mem_range.mp he
    refine Runs.bind0 (ampProdSum_runs hP hD wP' wD' s1 s2 hr he hn) ?_
    have ho := offset3 hr he hn s3
    dsimp only
    rw [ho.1]
    refine Runs.bind (ws' := []) (runs_store _ (Or.inl rfl) hT (hTl ▸ ho.2)) ?_
    exact .ret _
  · rw [rankRefl_sum, compensatedSum_exact]
    exact runs_store _ (Or.inr rfl) hL (hLl ▸ hn)

/-- position of `(iRank, iRefl, iWave, i)` in an array of partial derivative sums. -/
abbrev derivPos (L : LikData) (n : ℕ) (s : Slot) (i : ℕ) : ℕ := ((s.1 * 2 + s.2.1) * wMax L + s.2.2) * n + i

theorem deriv_runs {h : Heap} {pD pT pL out T t : ℕ} {L : LikData} {V : Amps} {flat : ℝ} (hD : HasDecay h pD L)
    (hT : ∀ re ∈ rankRefl L.rank, ∀ n < L.nmbEvents, h.get pT (termPos L re n) = some (.cx (L.ampSum V n re.1 re.2)))
    (hL : ∀ n < L.nmbEvents, h.get pL n = some (.re (L.sigma V flat n))) (wD : pD ≠ out) (wT : pT ≠ out) (wL : pL ≠ out)
    (s2 : 2 * wMax L * L.nmbEvents ≤ 2 ^ 32) (s3 : L.rank * 2 * L.nmbEvents ≤ 2 ^ 32) (s4 : L.rank * 2 * wMax L * T ≤ 2 ^ 32)
    (s5 : L.nmbEvents + T ≤ 2 ^ 32) (ht : t < T) {b : Block} (hb : h out = some b) (hl : b.len = L.rank * 2 * wMax L * T) :
    Runs h (· = out) (logLikelihoodDerivKernel pD pT pL L.nmbEvents L.rank (L.nW 0) (L.nW 1) (wMax L) out T t)
      ((slots L.rank L.nW).flatMap fun s =>
        [(out, derivPos L T s t, Val.cx (∑ n ∈ evts L.nmbEvents T t, -((2 / L.sigma V flat n : ℝ) : ℂ) * L.evtDeriv V n s))]) () := by
  unfold logLikelihoodDerivKernel
  dsimp only
  rw [slots_eq]
  refine runs_forM _ _ ?_
  intro s hs
  obtain ⟨hr, he, hw⟩ := mem_slots hs
  have hw' := lt_of_lt_of_le hw (nW_le L he)
  obtain ⟨l, hrl, hnd, hmem⟩ := strided_spec (h := h) (W := (· = out)) t L.nmbEvents T ht s5
  refine Runs.bind0 hrl ?_
  refine Runs.bind0 (runs_compLoop0 (fun n => -((2 / L.sigma V flat n : ℝ) : ℂ) * L.evtDeriv V n s) l ?_) ?_
  · intro n hn d
    have hn := ((hmem n).mp hn).1
    rw [(offset3 hr he hn s3).1, (offset3 he hw' hn s2).1]
    have hre : (s.1, s.2.1) ∈ rankRefl L.rank :=
      List.mem_flatMap.mpr ⟨s.1, List.mem_range.mpr hr, List.mem_map.mpr ⟨s.2.1, List.mem_range.mpr he, rfl⟩⟩
    refine Runs.bind0 (runs_load wT rfl (hT _ hre n hn)) ?_
    refine Runs.bind0 (runs_load wD rfl (hD _ _ n he hw hn)) ?_
    refine Runs.bind0 (runs_load (T := ℝ) wL rfl (hL n hn)) ?_
    have e2 : -((2 / L.sigma V flat n : ℝ) : ℂ) = ((-(2 / L.sigma V flat n) : ℝ) : ℂ) := by push_cast; ring
    rw [e2]
    exact .ret _
  · have ho := offset4 hr he hw' ht s4
    rw [sum_list_eq hnd hmem, ho.1]
    exact runs_store _ rfl hb (hl ▸ ho.2)

theorem sum_runs {h : Heap} {p out n m t : ℕ} {f : ℕ → ℝ} (hp : ∀ i < n, h.get p i = some (.re (f i))) (wp : p ≠ out) (s : n + m ≤ 2 ^ 32)
    (ht : t < m) {b : Block} (hb : h out = some b) (hl : b.len = m) :
    Runs h (· = out) (sumKernel ℝ p n out m t) [(out, t, .re (∑ i ∈ evts n m t, f i))] () := by
  unfold sumKernel
  rw [if_pos ht]
  obtain ⟨l, hrl, hnd, hmem⟩ := strided_spec (h := h) (W := (· = out)) t n m ht s
  refine Runs.bind0 hrl ?_
  refine Runs.bind0 (runs_compLoop0 f l ?_) ?_
  · intro i hi d
    refine Runs.bind0 (runs_load wp rfl (hp i ((hmem i).mp hi).1)) ?_
    exact .ret _
  · rw [sum_list_eq hnd hmem]
    exact runs_store _ rfl hb (hl ▸ ht)

theorem sumDeriv_runs {h : Heap} {p out n m t : ℕ} {L : LikData} {f : Slot → ℕ → ℂ}
    (hp : ∀ s ∈ slots L.rank L.nW, ∀ i < n, h.get p (derivPos L n s i) = some (.cx (f s i))) (wp : p ≠ out)
    (s1 : L.rank * 2 * wMax L * n ≤ 2 ^ 32) (s2 : L.rank * 2 * wMax L * m ≤ 2 ^ 32) (s3 : n + m ≤ 2 ^ 32) (ht : t < m) {b : Block}
    (hb : h out = some b) (hl : b.len = L.rank * 2 * wMax L * m) :
    Runs h (· = out) (sumDerivativesKernel p n L.rank (L.nW 0) (L.nW 1) (wMax L) out m t)
      ((slots L.rank L.nW).flatMap fun s => [(out, derivPos L m s t, Val.cx (∑ i ∈ evts n m t, f s i))]) () := by
  unfold sumDerivativesKernel
  rw [if_pos ht]
  dsimp only
  rw [slots_eq]
  refine runs_forM _ _ ?_
  intro s hs
  obtain ⟨hr, he, hw⟩ := mem_slots hs
  have hw' := lt_of_lt_of_le hw (nW_le L he)
  obtain ⟨l, hrl, hnd, hmem⟩ := strided_spec (h := h) (W := (· = out)) t n m ht s3
  refine Runs.bind0 hrl ?_
  refine Runs.bind0 (runs_compLoop0 (f s) l ?_) ?_
  · intro i hi d
    have hi := ((hmem i).mp hi).1
    rw [(offset4 hr he hw' hi s1).1]
    refine Runs.bind0 (runs_load wp rfl (hp s hs i hi)) ?_
    exact .ret _
  · have ho := offset4 hr he hw' ht s2
    rw [sum_list_eq hnd hmem, ho.1]
    exact runs_store _ rfl hb (hl ▸ ho.2)

end Rpwa.Cuda
