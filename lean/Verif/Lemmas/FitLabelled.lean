import Verif.Lemmas.FitNames
import Verif.Lemmas.FitResult
import Mathlib.Algebra.BigOperators.Group.List.Basic
/-! Lemmas for fit results whose amplitudes carry labels. -/
namespace Rpwa.Fit

open Finset

variable {rx : Name → Name → Bool} {r : FitResult} {labels : List Label}

/-- positions of the amplitudes of a wave. -/
def idxs (labels : List Label) (w : Wave) : List ℕ :=
  (List.range labels.length).filter fun i => decide (labels[i]?.map (·.wave) = some w)

theorem mem_idxs {w : Wave} {i : ℕ} : i ∈ idxs labels w ↔ ∃ k, labels[i]? = some ⟨w, k⟩ := by
  unfold idxs
  simp only [List.mem_filter, List.mem_range, decide_eq_true_eq, Option.map_eq_some_iff]
  constructor
  · rintro ⟨_, l, hl, rfl⟩; exact ⟨l.rank, hl⟩
  · rintro ⟨k, hk⟩
    exact ⟨(List.getElem?_eq_some_iff.1 hk).1, _, hk, rfl⟩

theorem nodup_idxs (w : Wave) : (idxs labels w).Nodup := List.nodup_range.filter _

theorem Labelled.name (hL : Labelled r labels) {i : ℕ} {l : Label} (h : labels[i]? = some l) : r.prodAmpNames[i]? = some l.text := by
  rw [hL.names, List.getElem?_map, h]; rfl

theorem Labelled.rank (hL : Labelled r labels) {i : ℕ} {l : Label} (h : labels[i]? = some l) : r.rankOfProdAmp i = l.code := by
  unfold FitResult.rankOfProdAmp
  rw [List.getD_eq_getElem?_getD, hL.name h]
  exact rankOfName_text l

theorem plain_text (w : Wave) (hg : ∀ i, w = .pw i → i.Good) : ∀ c ∈ w.text, PlainChar c := by
  cases w with
  | flat => unfold PlainChar; decide
  | pw i => exact (hg i rfl).2.2.2.2

theorem Labelled.indices (hrx : LiteralRx rx) (hL : Labelled r labels) {i : ℕ} {l : Label} (hl : l ∈ labels)
    (hi : r.waveNames[i]? = some l.wave.text) : r.prodAmpIndicesForWave rx i = .ok (idxs labels l.wave) := by
  unfold FitResult.prodAmpIndicesForWave FitResult.waveName
  rw [hi]
  refine congrArg Outcome.ok ?_
  unfold FitResult.prodAmpIndicesMatching idxs
  rw [hL.count]
  refine List.filter_congr fun j hj => ?_
  have hj := List.mem_range.1 hj
  have hp := plain_text l.wave (hL.good l hl)
  rw [escape_eq _ (fun h => hp _ h (by decide)), Bool.eq_iff_iff, hL.name (List.getElem?_eq_getElem hj), List.getElem?_eq_getElem hj]
  simp only [Option.map_some, Option.getD_some, decide_eq_true_eq, Option.some.injEq]
  rw [hrx _ hp]
  constructor
  · exact hL.separate l hl _ (List.getElem_mem hj)
  · intro h; rw [← h]; exact text_infix _

theorem Labelled.getElem?_unique (hL : Labelled r labels) {i j : ℕ} {l : Label} (hi : labels[i]? = some l) (hj : labels[j]? = some l) : i = j := by
  obtain ⟨hi', hi⟩ := List.getElem?_eq_some_iff.1 hi
  obtain ⟨hj', hj⟩ := List.getElem?_eq_some_iff.1 hj
  exact (List.Nodup.getElem_inj_iff hL.nodup).1 (hi.trans hj.symm)

theorem Labelled.ampOf_eq (hL : Labelled r labels) {i : ℕ} {l : Label} (hi : labels[i]? = some l) : ampOf r labels l.wave l.rank = r.prodAmps i := by
  unfold ampOf
  have hm : (⟨l.wave, l.rank⟩ : Label) ∈ labels := List.mem_of_getElem? hi
  rw [if_pos hm]
  have h2 : labels[labels.idxOf l]? = some l := by
    have := List.idxOf_lt_length_iff.2 hm
    rw [List.getElem?_eq_getElem this]
    simp
  exact congrArg _ (hL.getElem?_unique h2 hi)

theorem refl_eq_zero {w : Wave} : w.refl = 0 ↔ w = .flat := by
  cases w with
  | flat => simp [Wave.refl]
  | pw w => cases h : w.pos <;> simp [Wave.refl, h]

/-- the code's search for the amplitude of equal rank finds the amplitude with the same rank number. -/
theorem Labelled.partner_eq (hL : Labelled r labels) {i : ℕ} {l : Label} (hi : labels[i]? = some l) (B : Wave) (hr : l.wave.refl = B.refl) :
    r.partner i (idxs labels B) = ampOf r labels B l.rank := by
  have hflat := fun l (h : l ∈ labels) => hL.flat l h
  have hlm : l ∈ labels := List.mem_of_getElem? hi
  -- equal code means equal rank
  have hcode : ∀ k, (⟨B, k⟩ : Label) ∈ labels → ((⟨B, k⟩ : Label).code = l.code ↔ k = l.rank) := by
    intro k hk
    unfold Label.code
    cases hB : B with
    | flat =>
      have h1 : l.wave = .flat := by
        rw [hB] at hr
        exact refl_eq_zero.1 hr
      have hk0 := hflat _ hk hB
      have hl0 := hflat _ hlm h1
      simp only at hk0
      rw [h1, hk0, hl0]
      simp
    | pw w =>
      cases hw : l.wave with
      | flat =>
        rw [hB, hw] at hr
        exact absurd (refl_eq_zero.1 hr.symm) (by simp)
      | pw w' => simp
  unfold FitResult.partner
  cases hf : (idxs labels B).find? (fun j => r.rankOfProdAmp j == r.rankOfProdAmp i) with
  | none =>
    simp only
    unfold ampOf
    rw [if_neg]
    intro hm
    obtain ⟨j, hj, hjl⟩ := List.getElem_of_mem hm
    have hj' : labels[j]? = some ⟨B, l.rank⟩ := by rw [List.getElem?_eq_getElem hj, hjl]
    have := (List.find?_eq_none.1 hf) j (mem_idxs.2 ⟨_, hj'⟩)
    apply this
    rw [hL.rank hj', hL.rank hi, (hcode _ hm).2 rfl]
    simp
  | some j =>
    simp only
    have hmem := List.mem_of_find?_eq_some hf
    have hp := List.find?_some hf
    obtain ⟨k, hk⟩ := mem_idxs.1 hmem
    rw [hL.rank hk, hL.rank hi, beq_iff_eq] at hp
    have hkr := (hcode k (List.mem_of_getElem? hk)).1 hp
    rw [← hkr]
    exact (hL.ampOf_eq hk).symm

/-- sum over the amplitudes of a wave as a sum over ranks. -/
theorem Labelled.sum_idxs (hL : Labelled r labels) (A : Wave) (K : ℕ) (hK : ∀ l ∈ labels, l.rank < K) (F : ℕ → ℂ) (g : ℕ → ℂ)
    (hg : ∀ i k, labels[i]? = some ⟨A, k⟩ → g i = r.prodAmps i * F k) :
    ((idxs labels A).map g).sum = ∑ k ∈ range K, ampOf r labels A k * F k := by
  have h1 : ((idxs labels A).map g).sum = ∑ i ∈ (idxs labels A).toFinset, g i := (List.sum_toFinset g (nodup_idxs A)).symm
  have h2 : ∑ k ∈ range K, ampOf r labels A k * F k = ∑ k ∈ (range K).filter (fun k => (⟨A, k⟩ : Label) ∈ labels), ampOf r labels A k * F k := by
    rw [sum_filter]
    refine sum_congr rfl fun k _ => ?_
    split
    · rfl
    · rename_i h; unfold ampOf; rw [if_neg h]; simp
  rw [h1, h2]
  symm
  refine sum_bij (fun k _ => labels.idxOf ⟨A, k⟩) ?_ ?_ ?_ ?_
  · intro k hk
    have hm := (mem_filter.1 hk).2
    refine List.mem_toFinset.2 (mem_idxs.2 ⟨k, ?_⟩)
    rw [List.getElem?_eq_getElem (List.idxOf_lt_length_iff.2 hm)]; simp
  · intro k hk k' hk' h
    have hm := (mem_filter.1 hk).2
    have := (List.idxOf_inj (x := (⟨A, k⟩ : Label)) (y := ⟨A, k'⟩) hm).1 h
    exact (Label.mk.inj this).2
  · intro i hi
    obtain ⟨k, hk⟩ := mem_idxs.1 (List.mem_toFinset.1 hi)
    have hm := List.mem_of_getElem? hk
    refine ⟨k, mem_filter.2 ⟨mem_range.2 (hK _ hm), hm⟩, hL.getElem?_unique ?_ hk⟩
    rw [List.getElem?_eq_getElem (List.idxOf_lt_length_iff.2 hm)]; simp
  · intro k hk
    have hm := (mem_filter.1 hk).2
    have hi : labels[labels.idxOf ⟨A, k⟩]? = some ⟨A, k⟩ := by
      rw [List.getElem?_eq_getElem (List.idxOf_lt_length_iff.2 hm)]; simp
    rw [hg _ k hi, ← hL.ampOf_eq hi]

theorem pairs_sum (r : FitResult) (as bs : List ℕ) (s : ℂ) :
    (r.pairLoop as bs).foldl (fun s p => s + r.prodAmps p.1 * (starRingEnd ℂ) (r.prodAmps p.2)) s =
      s + (as.map fun a => r.prodAmps a * (starRingEnd ℂ) (r.partner a bs)).sum := by
  induction as generalizing s with
  | nil => simp [FitResult.pairLoop]
  | cons a as ih =>
    have hcons : r.pairLoop (a :: as) bs = (match bs.find? (fun b => r.rankOfProdAmp a == r.rankOfProdAmp b) with
        | some b => [(a, b)]
        | none => []) ++ r.pairLoop as bs := List.flatMap_cons
    have hsym : (fun b => r.rankOfProdAmp a == r.rankOfProdAmp b) = fun b => r.rankOfProdAmp b == r.rankOfProdAmp a := by
      funext b
      rw [Bool.eq_iff_iff, beq_iff_eq, beq_iff_eq]
      exact eq_comm
    rw [hcons, List.foldl_append, ih, List.map_cons, List.sum_cons, hsym]
    unfold FitResult.partner
    cases bs.find? (fun b => r.rankOfProdAmp b == r.rankOfProdAmp a) with
    | none => simp
    | some b => simp [add_assoc]

/-- the code's spin-density element in terms of the amplitudes by wave and rank. -/
theorem Labelled.spinDens_eq (hrx : LiteralRx rx) (hL : Labelled r labels) (K : ℕ) (hK : ∀ l ∈ labels, l.rank < K) {i j : ℕ} {A B : Wave}
    (hA : ∃ l ∈ labels, l.wave = A) (hB : ∃ l ∈ labels, l.wave = B) (hi : r.waveNames[i]? = some A.text) (hj : r.waveNames[j]? = some B.text) :
    r.spinDens rx i j = .ok (if A.refl = B.refl then
      (r.normNmbEvents : ℂ) * ∑ k ∈ range K, ampOf r labels A k * (starRingEnd ℂ) (ampOf r labels B k) else 0) := by
  obtain ⟨lA, hlA, rfl⟩ := hA
  obtain ⟨lB, hlB, rfl⟩ := hB
  have hnA : r.waveName i = .ok lA.wave.text := by unfold FitResult.waveName; rw [hi]
  have hnB : r.waveName j = .ok lB.wave.text := by unfold FitResult.waveName; rw [hj]
  have heA := reflectivity_wave lA.wave (hL.good lA hlA)
  have heB := reflectivity_wave lB.wave (hL.good lB hlB)
  unfold FitResult.spinDens FitResult.prodAmpIndexPairs
  rw [hnA, hnB]
  simp only [Outcome.ok_bind, heA, heB]
  by_cases hr : lA.wave.refl = lB.wave.refl
  · rw [if_neg (by simp [hr]), if_neg (by simp [hr]), if_pos hr, hL.indices hrx hlA hi, hL.indices hrx hlB hj]
    simp only [Outcome.ok_bind]
    have key := pairs_sum r (idxs labels lA.wave) (idxs labels lB.wave) 0
    rw [hL.sum_idxs lA.wave K hK (fun k => (starRingEnd ℂ) (ampOf r labels lB.wave k)) _
      (fun a k ha => by rw [hL.partner_eq ha lB.wave hr])] at key
    rw [zero_add] at key
    split
    · rename_i h0
      rw [List.length_eq_zero_iff.1 h0] at key
      simp only [List.foldl_nil] at key
      rw [← key]; simp
    · rw [key]
  · rw [if_pos hr, if_neg hr]

end Rpwa.Fit
