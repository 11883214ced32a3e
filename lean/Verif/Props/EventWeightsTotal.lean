import Verif.Props.EventWeightsMain
import Verif.Props.SpinDensity
/-! # C65: the sum of the weights is the intensity that the fit result reports -/
namespace Rpwa.Wgt

open Rpwa.Fit Rpwa.Integral Finset

variable {r : FitResult} {labels : List Label}

theorem sum_labels {M : Type} [AddCommMonoid M] (hnd : labels.Nodup) (F : Label → ℕ → M) :
    (labels.zipIdx.map fun l => F l.1 l.2).sum = ∑ l ∈ labels.toFinset, F l (labels.idxOf l) := by
  have : (labels.zipIdx.map fun l => F l.1 l.2) = labels.map fun l => F l (labels.idxOf l) := by
    refine List.ext_getElem (by simp) fun i h1 h2 => ?_
    have hi : i < labels.length := by simpa using h2
    simp [hnd.idxOf_getElem i hi]
  rw [this, List.sum_toFinset _ hnd]

/-- the wave with a wave index. -/
structure WavesOf (r : FitResult) (labels : List Label) (W : ℕ → Wave) : Prop where
  htext : ∀ i < r.waveNames.length, r.waveNames[i]? = some (W i).text
  hmem : ∀ i < r.waveNames.length, ∃ l ∈ labels, l.wave = W i
  hinj : ∀ i < r.waveNames.length, ∀ j < r.waveNames.length, W i = W j → i = j
  hsurj : ∀ l ∈ labels, ∃ i < r.waveNames.length, W i = l.wave

theorem exists_wavesOf (hL : Lists r labels) : ∃ W, WavesOf r labels W := by
  have h : ∀ i, ∃ w : Wave, i < r.waveNames.length → r.waveNames[i]? = some w.text ∧ ∃ l ∈ labels, l.wave = w := by
    intro i
    by_cases hi : i < r.waveNames.length
    · obtain ⟨l, hl, hn⟩ := (hL.hwaves.2 _).1 (List.getElem_mem hi)
      exact ⟨l.wave, fun _ => ⟨by rw [List.getElem?_eq_getElem hi, hn], l, hl, rfl⟩⟩
    · exact ⟨.flat, fun h => absurd h hi⟩
  choose W hW using h
  refine ⟨W, ⟨fun i hi => (hW i hi).1, fun i hi => (hW i hi).2, ?_, ?_⟩⟩
  · intro i hi j hj h
    exact (List.getElem?_inj hi hL.hwaves.1).1 ((hW i hi).1.trans ((congrArg (fun w => some (Wave.text w)) h).trans (hW j hj).1.symm))
  · intro l hl
    have hx := waveIdx_spec hL l hl
    obtain ⟨hlt, _⟩ := List.getElem?_eq_some_iff.1 hx
    refine ⟨waveIdx r l, hlt, ?_⟩
    obtain ⟨h1, l', hl', hw⟩ := hW _ hlt
    rw [← hw]
    refine wave_text_inj (hL.hgood l' hl') (hL.hgood l hl) ?_
    have := h1.symm.trans hx
    rw [hw]
    exact Option.some.inj this

theorem sum_waves {M : Type} [AddCommMonoid M] {W : ℕ → Wave} (hW : WavesOf r labels W) (K : ℕ) (hK : ∀ l ∈ labels, l.rank < K) (G : Label → M) :
    ∑ l ∈ labels.toFinset, G l = ∑ i ∈ range r.waveNames.length, ∑ k ∈ range K, if (⟨W i, k⟩ : Label) ∈ labels then G ⟨W i, k⟩ else 0 := by
  rw [← sum_product', ← sum_filter]
  symm
  refine sum_bij (fun p _ => (⟨W p.1, p.2⟩ : Label)) ?_ ?_ ?_ ?_
  · intro p hp; exact List.mem_toFinset.2 (mem_filter.1 hp).2
  · intro p hp q hq h
    have h1 := (mem_product.1 (mem_filter.1 hp).1)
    have h2 := (mem_product.1 (mem_filter.1 hq).1)
    injection h with ha hb
    exact Prod.ext (hW.hinj _ (mem_range.1 h1.1) _ (mem_range.1 h2.1) ha) hb
  · intro l hl
    have hl := List.mem_toFinset.1 hl
    obtain ⟨i, hi, hw⟩ := hW.hsurj l hl
    refine ⟨(i, l.rank), mem_filter.2 ⟨mem_product.2 ⟨mem_range.2 hi, mem_range.2 (hK l hl)⟩, ?_⟩, ?_⟩
    · show (⟨W i, l.rank⟩ : Label) ∈ labels
      rw [hw]; exact hl
    · show (⟨W i, l.rank⟩ : Label) = l
      rw [hw]
  · intro p hp; rfl

theorem coherent_waves {W : ℕ → Wave} (hL : Lists r labels) (hW : WavesOf r labels W) (K : ℕ) (hK : ∀ l ∈ labels, l.rank < K) (psi : Wave → ℂ) (e : ℤ) (k : ℕ)
    (hk : k < K) : coherent labels r.prodAmps psi e k =
      ∑ i ∈ range r.waveNames.length, if (W i).refl = e then ampOf r labels (W i) k * psi (W i) else 0 := by
  unfold coherent
  rw [sum_labels hL.hnodup fun l n => if l.wave.refl = e ∧ l.rank = k then r.prodAmps n * psi l.wave else 0, sum_waves hW K hK]
  refine sum_congr rfl fun i _ => ?_
  rw [sum_eq_single k]
  · unfold ampOf
    by_cases h1 : (⟨W i, k⟩ : Label) ∈ labels <;> by_cases h2 : (W i).refl = e <;> simp [h1, h2]
  · intro k' _ hk'
    simp [hk']
  · intro h; exact absurd (mem_range.2 hk) h

theorem single_waves {W : ℕ → Wave} (hL : Lists r labels) (hW : WavesOf r labels W) (K : ℕ) (hK : ∀ l ∈ labels, l.rank < K) (psi : Wave → ℂ) (i : ℕ)
    (hi : i < r.waveNames.length) : waveIntensity labels r.prodAmps psi (W i) =
      (∑ k ∈ range K, Complex.normSq (ampOf r labels (W i) k)) * Complex.normSq (if W i = .flat then 1 else psi (W i)) := by
  unfold waveIntensity
  rw [sum_labels hL.hnodup fun l n => if l.wave = W i then Complex.normSq (r.prodAmps n * (if W i = .flat then 1 else psi (W i))) else 0, sum_waves hW K hK]
  rw [sum_eq_single i, sum_mul]
  · refine sum_congr rfl fun k _ => ?_
    unfold ampOf
    by_cases h1 : (⟨W i, k⟩ : Label) ∈ labels
    · rw [if_pos h1, if_pos h1, if_pos rfl, map_mul]
    · rw [if_neg h1, if_neg h1]; simp
  · intro j hj hji
    refine sum_eq_zero fun k _ => ?_
    have : W j ≠ W i := fun h => hji (hW.hinj j (mem_range.1 hj) i hi h)
    simp [this]
  · intro h; exact absurd (mem_range.2 hi) h

theorem flat_waves {W : ℕ → Wave} (hL : Lists r labels) (hW : WavesOf r labels W) (K : ℕ) (hK : ∀ l ∈ labels, l.rank < K) :
    flatIntensity labels r.prodAmps = ∑ i ∈ range r.waveNames.length, if W i = .flat then ∑ k ∈ range K, Complex.normSq (ampOf r labels (W i) k) else 0 := by
  unfold flatIntensity
  rw [sum_labels hL.hnodup fun l n => if l.wave = .flat then Complex.normSq (r.prodAmps n) else 0, sum_waves hW K hK]
  refine sum_congr rfl fun i _ => ?_
  by_cases hf : W i = .flat
  · rw [if_pos hf]
    refine sum_congr rfl fun k _ => ?_
    unfold ampOf
    by_cases h1 : (⟨W i, k⟩ : Label) ∈ labels
    · rw [if_pos h1, if_pos h1, if_pos hf]
    · rw [if_neg h1, if_neg h1, map_zero]
  · rw [if_neg hf]
    refine sum_eq_zero fun k _ => ?_
    by_cases h1 : (⟨W i, k⟩ : Label) ∈ labels
    · rw [if_pos h1, if_neg hf]
    · rw [if_neg h1]

/-! ### sums over events -/

theorem sum_psi {int : IntMat} {files : Name → Option AmpFile} {A : Wave → ℕ → ℂ} {N : ℕ} {W : ℕ → Wave} (hW : WavesOf r labels W)
    (hu : Usable labels int files A N) (hown : OwnIntegral labels int A N) (hsame : SameIntegral r labels int) (i j : ℕ) (hi : i < r.waveNames.length)
    (hj : j < r.waveNames.length) (hfi : W i ≠ .flat) (hfj : W j ≠ .flat) :
    ∑ ev ∈ range N, normalised int A ev (W i) * (starRingEnd ℂ) (normalised int A ev (W j)) = (N : ℂ) * r.normIntegral.entry i j := by
  obtain ⟨l, hl, hwl⟩ := hW.hmem i hi
  obtain ⟨l', hl', hwl'⟩ := hW.hmem j hj
  have h1 := hsame.hwave i j l l' hl hl' (hwl ▸ hfi) (hwl' ▸ hfj) (hwl ▸ hW.htext i hi) (hwl' ▸ hW.htext j hj)
  have hN : (N : ℂ) ≠ 0 := by exact_mod_cast hu.hN.ne'
  rw [h1, hown.hentry l hl l' hl' (hwl ▸ hfi) (hwl' ▸ hfj), hown.hevents, hwl, hwl', div_div, mul_div_assoc', mul_div_mul_left _ _ hN, sum_div]
  refine sum_congr rfl fun ev _ => ?_
  unfold normalised
  rw [map_div₀, Complex.conj_ofReal, div_mul_div_comm]

theorem sum_normSq_lin {n N : ℕ} (a : ℕ → ℂ) (psi : ℕ → ℕ → ℂ) :
    ((∑ ev ∈ range N, Complex.normSq (∑ i ∈ range n, a i * psi ev i) : ℝ) : ℂ) =
      ∑ i ∈ range n, ∑ j ∈ range n, a i * (starRingEnd ℂ) (a j) * ∑ ev ∈ range N, psi ev i * (starRingEnd ℂ) (psi ev j) := by
  rw [Complex.ofReal_sum]
  have : ∀ ev, ((Complex.normSq (∑ i ∈ range n, a i * psi ev i) : ℝ) : ℂ) =
      ∑ i ∈ range n, ∑ j ∈ range n, a i * (starRingEnd ℂ) (a j) * (psi ev i * (starRingEnd ℂ) (psi ev j)) := by
    intro ev
    rw [← Complex.mul_conj, map_sum, sum_mul_sum]
    refine sum_congr rfl fun i _ => sum_congr rfl fun j _ => ?_
    rw [map_mul]; ring
  simp only [this]
  rw [sum_comm]
  refine sum_congr rfl fun i _ => ?_
  rw [sum_comm]
  refine sum_congr rfl fun j _ => ?_
  rw [mul_sum]

/-- sum over the events of the intensity of one reflectivity. -/
theorem sum_refl {int : IntMat} {files : Name → Option AmpFile} {A : Wave → ℕ → ℂ} {N : ℕ} {W : ℕ → Wave} (hL : Lists r labels) (hW : WavesOf r labels W)
    (hu : Usable labels int files A N) (hown : OwnIntegral labels int A N) (hsame : SameIntegral r labels int) (K : ℕ) (hK : ∀ l ∈ labels, l.rank < K)
    (e : ℤ) (he : e ≠ 0) :
    ((∑ ev ∈ range N, reflIntensity labels r.prodAmps (normalised int A ev) K e : ℝ) : ℂ) = (N : ℂ) * ∑ k ∈ range K,
      ∑ i ∈ range r.waveNames.length, ∑ j ∈ range r.waveNames.length, if (W i).refl = e ∧ (W j).refl = e then
        ampOf r labels (W i) k * (starRingEnd ℂ) (ampOf r labels (W j) k) * r.normIntegral.entry i j else 0 := by
  unfold reflIntensity
  rw [sum_comm, Complex.ofReal_sum, mul_sum]
  refine sum_congr rfl fun k hk => ?_
  have hnf : ∀ i, (W i).refl = e → W i ≠ .flat := by
    intro i h hf; rw [hf] at h; exact he h.symm
  have : ∀ ev, coherent labels r.prodAmps (normalised int A ev) e k =
      ∑ i ∈ range r.waveNames.length, (if (W i).refl = e then ampOf r labels (W i) k else 0) * normalised int A ev (W i) := by
    intro ev
    rw [coherent_waves hL hW K hK _ e k (mem_range.1 hk)]
    refine sum_congr rfl fun i _ => ?_
    split_ifs <;> simp
  simp only [this]
  rw [sum_normSq_lin, mul_sum]
  refine sum_congr rfl fun i hi => ?_
  rw [mul_sum]
  refine sum_congr rfl fun j hj => ?_
  by_cases h1 : (W i).refl = e
  · by_cases h2 : (W j).refl = e
    · rw [if_pos h1, if_pos h2, if_pos ⟨h1, h2⟩, sum_psi hW hu hown hsame i j (mem_range.1 hi) (mem_range.1 hj) (hnf i h1) (hnf j h2)]
      ring
    · have : ¬ ((W i).refl = e ∧ (W j).refl = e) := fun h => h2 h.2
      rw [if_neg h2, if_neg this]; simp
  · have : ¬ ((W i).refl = e ∧ (W j).refl = e) := fun h => h1 h.1
    rw [if_neg h1, if_neg this]; simp

/-- sum over the events of the intensity of the model. -/
theorem sum_model {int : IntMat} {files : Name → Option AmpFile} {A : Wave → ℕ → ℂ} {N : ℕ} {W : ℕ → Wave} (hL : Lists r labels) (hW : WavesOf r labels W)
    (hu : Usable labels int files A N) (hown : OwnIntegral labels int A N) (hsame : SameIntegral r labels int) (K : ℕ) (hK : ∀ l ∈ labels, l.rank < K) :
    ((∑ ev ∈ range N, modelIntensity labels r.prodAmps (normalised int A ev) K : ℝ) : ℂ) = (N : ℂ) *
      ∑ i ∈ range r.waveNames.length, ∑ j ∈ range r.waveNames.length, (if (W i).refl = (W j).refl then
        ∑ k ∈ range K, ampOf r labels (W i) k * (starRingEnd ℂ) (ampOf r labels (W j) k) else 0) * r.normIntegral.entry i j := by
  unfold modelIntensity
  rw [sum_add_distrib, sum_add_distrib, Complex.ofReal_add, Complex.ofReal_add, sum_refl hL hW hu hown hsame K hK 1 (by decide),
    sum_refl hL hW hu hown hsame K hK (-1) (by decide), sum_const, card_range, nsmul_eq_mul, Complex.ofReal_mul, Complex.ofReal_natCast, ← mul_add, ← mul_add]
  congr 1
  have hflat : ((flatIntensity labels r.prodAmps : ℝ) : ℂ) = ∑ i ∈ range r.waveNames.length, ∑ j ∈ range r.waveNames.length,
      if W i = .flat ∧ W j = .flat then ∑ k ∈ range K, ampOf r labels (W i) k * (starRingEnd ℂ) (ampOf r labels (W j) k) * r.normIntegral.entry i j else 0 := by
    rw [flat_waves hL hW K hK, Complex.ofReal_sum]
    refine sum_congr rfl fun i hi => ?_
    by_cases hf : W i = .flat
    · rw [if_pos hf]
      symm
      rw [sum_eq_single i]
      · symm
        rw [if_pos ⟨hf, hf⟩, Complex.ofReal_sum]
        refine sum_congr rfl fun k _ => ?_
        rw [hsame.hflat i ((hW.htext i (mem_range.1 hi)).trans (by rw [hf])), mul_one, Complex.mul_conj]
      · intro j hj hji
        rw [if_neg]
        rintro ⟨_, h⟩
        exact hji (hW.hinj j (mem_range.1 hj) i (mem_range.1 hi) (h.trans hf.symm))
      · intro h; exact absurd hi h
    · rw [if_neg hf, Complex.ofReal_zero]
      exact (sum_eq_zero fun j _ => if_neg (fun h => hf h.1)).symm
  have hswap : ∀ F : ℕ → ℕ → ℕ → ℂ, ∑ k ∈ range K, ∑ i ∈ range r.waveNames.length, ∑ j ∈ range r.waveNames.length, F k i j =
      ∑ i ∈ range r.waveNames.length, ∑ j ∈ range r.waveNames.length, ∑ k ∈ range K, F k i j := by
    intro F
    rw [sum_comm]
    exact sum_congr rfl fun i _ => sum_comm
  rw [hflat, hswap, hswap, ← sum_add_distrib, ← sum_add_distrib]
  refine sum_congr rfl fun i _ => ?_
  rw [← sum_add_distrib, ← sum_add_distrib]
  refine sum_congr rfl fun j _ => ?_
  have hr : ∀ w : Wave, (w.refl = 1 ∧ w ≠ .flat) ∨ (w.refl = -1 ∧ w ≠ .flat) ∨ (w.refl = 0 ∧ w = .flat) := by
    intro w
    cases w with
    | flat => exact Or.inr (Or.inr ⟨rfl, rfl⟩)
    | pw w => unfold Wave.refl; by_cases hp : w.pos <;> simp [hp]
  rcases hr (W i) with ⟨h1, f1⟩ | ⟨h1, f1⟩ | ⟨h1, f1⟩ <;> rcases hr (W j) with ⟨h2, f2⟩ | ⟨h2, f2⟩ | ⟨h2, f2⟩ <;>
    simp [h1, h2, f1, f2, sum_mul] <;> (simp only [Wave.refl]; first | done | norm_num)

/-- the fit reports as many events per wave as the weights of the wave add up to, and as many events in total as the weights add up to, if the
amplitudes are normalised by the integrals over the weighted events themselves. -/
theorem weights_total {rx : Name → Name → Bool} {int : IntMat} {files : Name → Option AmpFile} {A : Wave → ℕ → ℂ} {N : ℕ} (hrx : LiteralRx rx)
    (hL : Lists r labels) (hLb : Labelled r labels) (hu : Usable labels int files A N) (hown : OwnIntegral labels int A N)
    (hsame : SameIntegral r labels int) (varied : List (ℕ → ℂ)) (pat : Name) (hpat : ∀ n ∈ r.waveNames, rx pat n = true) :
    ∃ outs, weightEvents int r varied files = .ok outs ∧
      r.intensityOf rx pat = .ok (r.normNmbEvents * (outs.map EventOut.weight).sum) ∧
      ∀ w < r.waveNames.length, r.intensity rx w = .ok (r.normNmbEvents * (outs.map fun o => o.waves w).sum) := by
  obtain ⟨K, hK⟩ := exists_rank_bound labels
  obtain ⟨W, hW⟩ := exists_wavesOf hL
  obtain ⟨outs, ho, hlen, hev⟩ := weights_spec hL hu varied K hK
  have hN : (N : ℝ) ≠ 0 := by exact_mod_cast hu.hN.ne'
  have hlist : ∀ (f : EventOut → ℝ) (g : ℕ → ℝ), (∀ (ev : ℕ) (o : EventOut), outs[ev]? = some o → f o = g ev) → (outs.map f).sum = ∑ ev ∈ range N, g ev := by
    intro f g h
    rw [← hlen, sum_range, ← List.sum_ofFn]
    congr 1
    refine List.ext_getElem (by simp) fun n h1 h2 => ?_
    have hn : n < outs.length := by simpa using h1
    simp only [List.getElem_map, List.getElem_ofFn]
    exact h n _ (List.getElem?_eq_getElem hn)
  refine ⟨outs, ho, ?_, ?_⟩
  · obtain ⟨rho, hrho, hint⟩ := intensityOf_eq hrx hLb hsame.hherm pat
    rw [hint]
    have hall : (range r.waveNames.length).filter (fun i => rx pat (r.waveNames.getD i []) = true) = range r.waveNames.length := by
      refine filter_true_of_mem fun i hi => ?_
      rw [List.getD_eq_getElem _ _ (mem_range.1 hi)]
      exact hpat _ (List.getElem_mem _)
    rw [hall]
    refine congrArg Outcome.ok ?_
    have hrho' : ∀ i < r.waveNames.length, ∀ j < r.waveNames.length, rho i j = if (W i).refl = (W j).refl then
        (r.normNmbEvents : ℂ) * ∑ k ∈ range K, ampOf r labels (W i) k * (starRingEnd ℂ) (ampOf r labels (W j) k) else 0 := fun i hi j hj =>
      Outcome.ok.inj ((hrho i hi j hj).symm.trans (spinDensityMatrixElem_eq_partial hrx hLb K hK ⟨hW.htext i hi, hW.hmem i hi⟩ ⟨hW.htext j hj, hW.hmem j hj⟩))
    have hsum : (outs.map EventOut.weight).sum = (∑ ev ∈ range N, modelIntensity labels r.prodAmps (normalised int A ev) K) / N := by
      rw [hlist EventOut.weight (fun ev => modelIntensity labels r.prodAmps (normalised int A ev) K / int.nmbEvents) (fun ev o h => (hev ev o h).1),
        ← sum_div, hown.hevents]
    have hre : (∑ i ∈ range r.waveNames.length, ∑ j ∈ range r.waveNames.length, rho i j * r.normIntegral.entry i j) =
        ((r.normNmbEvents * (outs.map EventOut.weight).sum : ℝ) : ℂ) := by
      rw [hsum, Complex.ofReal_mul, Complex.ofReal_div, sum_model hL hW hu hown hsame K hK, Complex.ofReal_natCast, Complex.ofReal_natCast,
        mul_div_cancel_left₀ _ (by exact_mod_cast hu.hN.ne'), mul_sum]
      refine sum_congr rfl fun i hi => ?_
      rw [mul_sum]
      refine sum_congr rfl fun j hj => ?_
      rw [hrho' i (mem_range.1 hi) j (mem_range.1 hj)]
      split_ifs
      · ring
      · simp
    rw [hre, Complex.ofReal_re]
  · intro w hw
    rw [intensity_eq hrx hLb K hK ⟨hW.htext w hw, hW.hmem w hw⟩]
    refine congrArg Outcome.ok ?_
    obtain ⟨l, hl, hwl⟩ := hW.hmem w hw
    rw [hlist (fun o => o.waves w) (fun ev => waveIntensity labels r.prodAmps (normalised int A ev) (W w) / int.nmbEvents)
      (fun ev o h => by rw [← hwl]; exact (hev ev o h).2.2.2.2.2.1 w l hl (hwl ▸ hW.htext w hw))]
    simp only [single_waves hL hW K hK _ w hw]
    rw [← sum_div, ← mul_sum, hown.hevents, mul_div_assoc, mul_assoc]
    congr 2
    by_cases hf : W w = .flat
    · rw [hsame.hflat w ((hW.htext w hw).trans (by rw [hf]))]
      simp only [hf, if_true, map_one, sum_const, card_range, nsmul_eq_mul, mul_one, Complex.one_re]
      rw [div_self hN]
    · simp only [if_neg hf]
      have h := congrArg Complex.re (sum_psi hW hu hown hsame w w hw hw hf hf)
      have h1 : ((N : ℂ) * r.normIntegral.entry w w).re = N * (r.normIntegral.entry w w).re := by
        rw [← Complex.ofReal_natCast, Complex.re_ofReal_mul]
      rw [Complex.re_sum, h1] at h
      have h2 : ∀ ev, (normalised int A ev (W w) * (starRingEnd ℂ) (normalised int A ev (W w))).re = Complex.normSq (normalised int A ev (W w)) := by
        intro ev; rw [Complex.mul_conj, Complex.ofReal_re]
      simp only [h2] at h
      rw [h, mul_div_cancel_left₀ _ hN]

end Rpwa.Wgt
