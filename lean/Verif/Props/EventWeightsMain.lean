import Verif.Props.EventWeights
/-! # C65: the weights are the intensity of the fitted model -/
namespace Rpwa.Wgt

open Rpwa.Fit Rpwa.Integral Finset

variable {r : FitResult} {labels : List Label}

/-! ### one event -/

/-- contribution of the amplitude with label `e.1` and index `e.2`. -/
noncomputable def ampL (int : IntMat) (A : Wave → ℕ → ℂ) (ev : ℕ) (V : ℕ → ℂ) (e : Label × ℕ) : ℂ :=
  (if e.1.wave = .flat then V e.2 else V e.2 * normalised int A ev e.1.wave) / (Real.sqrt int.nmbEvents : ℂ)

/-- decay amplitude that is read for a wave name. -/
noncomputable def decayOf (files : Name → Option AmpFile) (ev : ℕ) (n : Name) : ℂ :=
  if n = "flat".toList then 0 else ((((files n).getD []).getD ev []).getD 0 0)

theorem text_flat_iff (hL : Lists r labels) (l : Label) (hl : l ∈ labels) : l.wave.text = "flat".toList ↔ l.wave = .flat := by
  constructor
  · intro h
    exact wave_text_inj (hL.hgood l hl) (by intro i h; cases h) (h.trans rfl)
  · intro h; rw [h]; rfl

theorem decayOf_eq {int : IntMat} {files : Name → Option AmpFile} {A : Wave → ℕ → ℂ} {N : ℕ} (hL : Lists r labels) (hu : Usable labels int files A N)
    (l : Label) (hl : l ∈ labels) (hf : l.wave ≠ .flat) (ev : ℕ) (hev : ev < N) : decayOf files ev l.wave.text = A l.wave ev := by
  unfold decayOf
  rw [if_neg (fun h => hf ((text_flat_iff hL l hl).1 h)), hu.hfiles l hl hf]
  simp [hev]

theorem decay_mapM {int : IntMat} {files : Name → Option AmpFile} {A : Wave → ℕ → ℂ} {N : ℕ} (hL : Lists r labels) (hu : Usable labels int files A N)
    (ev : ℕ) (hev : ev < N) : ((r.waveNames.map (treeOf files)).mapM fun t => decayAmp t ev) = .ok (r.waveNames.map (decayOf files ev)) := by
  rw [List.mapM_map]
  have key : ∀ n ∈ r.waveNames, decayAmp (treeOf files n) ev = .ok (decayOf files ev n) := by
    intro n hn
    obtain ⟨l, hl, rfl⟩ := (hL.hwaves.2 n).1 hn
    unfold treeOf
    by_cases hf : l.wave.text = "flat".toList
    · rw [if_pos hf]; unfold decayOf; rw [if_pos hf]; rfl
    · rw [if_neg hf]
      have hf' : l.wave ≠ .flat := fun h => hf ((text_flat_iff hL l hl).2 h)
      rw [decayOf_eq hL hu l hl hf' ev hev, hu.hfiles l hl hf']
      unfold decayAmp
      simp [hev]
  obtain ⟨bs, hbs, hP⟩ := Rpwa.Best.mapM_ok_of (fun n => decayAmp (treeOf files n) ev) (fun n b => b = decayOf files ev n) r.waveNames
    (fun n hn => ⟨_, key n hn, rfl⟩)
  refine hbs.trans (congrArg Outcome.ok ?_)
  refine List.ext_getElem (by simp [hP.length_eq]) fun i h1 h2 => ?_
  have := (List.forall₂_iff_get.1 hP).2 i (by simpa using h2) h1
  simpa using this

theorem sqrt_split {int : IntMat} {w : Wave} (hd : 0 < diag int w) :
    ((Real.sqrt ((int.entry (String.ofList w.text) (String.ofList w.text) / (int.nmbEvents : ℂ)).re * int.nmbEvents) : ℝ) : ℂ)
      = (Real.sqrt (diag int w) : ℂ) * (Real.sqrt int.nmbEvents : ℂ) := by
  have h1 : (int.entry (String.ofList w.text) (String.ofList w.text) / (int.nmbEvents : ℂ)).re = diag int w := by
    unfold diag; exact Complex.div_natCast_re _ _
  rw [h1, Real.sqrt_mul hd.le, Complex.ofReal_mul]

/-- the sums after some amplitudes. -/
structure After (int : IntMat) (A : Wave → ℕ → ℂ) (ev : ℕ) (V : ℕ → ℂ) (es : List (Label × ℕ)) (s t : Sums) : Prop where
  hpos : ∀ k, t.pos k = s.pos k + (es.map fun e => if e.1.wave.refl = 1 ∧ e.1.rank = k then ampL int A ev V e else 0).sum
  hneg : ∀ k, t.neg k = s.neg k + (es.map fun e => if e.1.wave.refl = -1 ∧ e.1.rank = k then ampL int A ev V e else 0).sum
  hflat : t.flat = es.foldl (fun f e => if e.1.wave = .flat then ampL int A ev V e else f) s.flat
  hsingle : t.single = es.foldl (fun w e => fun k => if k = e.2 then Complex.normSq (ampL int A ev V e) else w k) s.single

theorem addRank_ok (maxRank : ℤ) (sums : ℕ → ℂ) (rank : ℕ) (h : (rank : ℤ) < maxRank) (amp : ℂ) :
    addRank maxRank sums rank amp = .ok fun k => sums k + if rank = k then amp else 0 := by
  unfold addRank
  rw [if_pos ⟨by positivity, h⟩]
  refine congrArg Outcome.ok (funext fun k => ?_)
  by_cases hk : rank = k
  · rw [if_pos hk, if_pos (by exact_mod_cast hk.symm)]
  · rw [if_neg hk, if_neg (fun h => hk (by exact_mod_cast h.symm)), add_zero]

theorem ampStep_ok {int : IntMat} {files : Name → Option AmpFile} {A : Wave → ℕ → ℂ} {N : ℕ} (hL : Lists r labels) (hu : Usable labels int files A N)
    (ev : ℕ) (hev : ev < N) (mr : ℤ) (hmr : ∀ l ∈ labels, (l.rank : ℤ) < mr) (V : ℕ → ℂ) (l : Label) (hl : l ∈ labels) (i : ℕ) (s : Sums) :
    ∃ t, ampStep int r.waveNames mr (r.waveNames.map (decayOf files ev)) V s (infoOf r l, i) = .ok t ∧ After int A ev V [(l, i)] s t := by
  have hw := waveIdx_spec hL l hl
  unfold ampStep
  have hdec : (r.waveNames.map (decayOf files ev))[(infoOf r l).wave]? = some (decayOf files ev l.wave.text) := by
    rw [List.getElem?_map]; unfold infoOf; rw [hw]; rfl
  have hname : r.waveNames[(infoOf r l).wave]? = some l.wave.text := hw
  simp only [hdec, hname]
  by_cases hf : l.wave = .flat
  · rw [if_pos ((text_flat_iff hL l hl).2 hf)]
    have ha : ampL int A ev V (l, i) = V i / (Real.sqrt int.nmbEvents : ℂ) := by unfold ampL; rw [if_pos hf]
    have hr : l.wave.refl = 0 := by rw [hf]; rfl
    refine ⟨_, rfl, ⟨?_, ?_, ?_, ?_⟩⟩
    · intro k; simp [hr]
    · intro k; simp [hr]
    · simp [hf, ha]
    · simp [ha]
  · rw [if_neg (fun h => hf ((text_flat_iff hL l hl).1 h))]
    have hm := hu.hint l hl hf
    rw [Rpwa.Lik.elementByName_returns int hu.hwf _ _ hm hm]
    simp only [Outcome.ok_bind]
    rw [sqrt_split (hu.hdiag l hl hf), decayOf_eq hL hu l hl hf ev hev]
    have ha : A l.wave ev * V i / ((Real.sqrt (diag int l.wave) : ℂ) * (Real.sqrt int.nmbEvents : ℂ)) = ampL int A ev V (l, i) := by
      unfold ampL normalised
      rw [if_neg hf]
      simp only
      rw [mul_div_assoc', div_div, mul_comm (A l.wave ev)]
    rw [ha]
    have hcode : (infoOf r l).rank = (l.rank : ℤ) := by
      unfold infoOf Label.code
      cases hw : l.wave with
      | flat => exact absurd hw hf
      | pw w => rfl
    have hrefl : (infoOf r l).refl = l.wave.refl := rfl
    have hpm : l.wave.refl = 1 ∨ l.wave.refl = -1 := by
      cases hw : l.wave with
      | flat => exact absurd hw hf
      | pw w => unfold Wave.refl; by_cases hp : w.pos <;> simp [hp]
    unfold addAmp
    simp only [hcode, hrefl]
    rcases hpm with hp | hp
    · rw [if_pos hp, addRank_ok mr s.pos l.rank (hmr l hl)]
      simp only [Outcome.ok_bind]
      refine ⟨_, rfl, ⟨?_, ?_, ?_, ?_⟩⟩
      · intro k; simp [hp]
      · intro k; simp [hp]
      · simp [hf]
      · simp
    · rw [if_neg (by rw [hp]; decide), if_pos hp, addRank_ok mr s.neg l.rank (hmr l hl)]
      simp only [Outcome.ok_bind]
      refine ⟨_, rfl, ⟨?_, ?_, ?_, ?_⟩⟩
      · intro k; simp [hp]
      · intro k; simp [hp]
      · simp [hf]
      · simp

theorem ampSums_after {int : IntMat} {files : Name → Option AmpFile} {A : Wave → ℕ → ℂ} {N : ℕ} (hL : Lists r labels) (hu : Usable labels int files A N)
    (ev : ℕ) (hev : ev < N) (mr : ℤ) (hmr : ∀ l ∈ labels, (l.rank : ℤ) < mr) (V : ℕ → ℂ) (es : List (Label × ℕ)) (hes : ∀ e ∈ es, e.1 ∈ labels) (s : Sums) :
    ∃ t, (es.map fun e => (infoOf r e.1, e.2)).foldlM (ampStep int r.waveNames mr (r.waveNames.map (decayOf files ev)) V) s = .ok t ∧ After int A ev V es s t := by
  induction es generalizing s with
  | nil => exact ⟨s, rfl, ⟨fun k => by simp, fun k => by simp, rfl, rfl⟩⟩
  | cons e es ih =>
    obtain ⟨t1, h1, a1⟩ := ampStep_ok hL hu ev hev mr hmr V e.1 (hes e List.mem_cons_self) e.2 s
    obtain ⟨t, h2, a2⟩ := ih (fun x hx => hes x (List.mem_cons_of_mem _ hx)) t1
    refine ⟨t, ?_, ⟨?_, ?_, ?_, ?_⟩⟩
    · rw [List.map_cons, List.foldlM_cons, h1, Outcome.ok_bind]; exact h2
    · intro k
      rw [a2.hpos, a1.hpos]
      simp only [List.map_cons, List.map_nil, List.sum_cons, List.sum_nil, add_zero, add_assoc]
    · intro k
      rw [a2.hneg, a1.hneg]
      simp only [List.map_cons, List.map_nil, List.sum_cons, List.sum_nil, add_zero, add_assoc]
    · rw [a2.hflat, a1.hflat]; rfl
    · rw [a2.hsingle, a1.hsingle]; rfl

/-! ### from the sums to the intensity -/

theorem normSq_div_sqrt (z : ℂ) (n : ℕ) : Complex.normSq (z / (Real.sqrt n : ℂ)) = Complex.normSq z / n := by
  rw [Complex.normSq_div, Complex.normSq_ofReal, Real.mul_self_sqrt (Nat.cast_nonneg n)]

theorem sum_ampL_eq (int : IntMat) (A : Wave → ℕ → ℂ) (ev : ℕ) (V : ℕ → ℂ) (e : ℤ) (he : e ≠ 0) (k : ℕ) (es : List (Label × ℕ)) :
    (es.map fun x => if x.1.wave.refl = e ∧ x.1.rank = k then ampL int A ev V x else 0).sum =
      (es.map fun x => if x.1.wave.refl = e ∧ x.1.rank = k then V x.2 * normalised int A ev x.1.wave else 0).sum / (Real.sqrt int.nmbEvents : ℂ) := by
  induction es with
  | nil => simp
  | cons x es ih =>
    simp only [List.map_cons, List.sum_cons, add_div]
    rw [ih]
    congr 1
    by_cases h : x.1.wave.refl = e ∧ x.1.rank = k
    · rw [if_pos h, if_pos h]
      unfold ampL
      rw [if_neg]
      intro hf
      rw [hf] at h
      exact he h.1.symm
    · rw [if_neg h, if_neg h, zero_div]

theorem flat_fold (int : IntMat) (A : Wave → ℕ → ℂ) (ev : ℕ) (V : ℕ → ℂ) (ls : List Label) (hnd : ls.Nodup) (hfl : ∀ l ∈ ls, l.wave = .flat → l.rank = 0) (k0 : ℕ) (f0 : ℂ) :
    Complex.normSq ((ls.zipIdx k0).foldl (fun f e => if e.1.wave = .flat then ampL int A ev V e else f) f0) =
      (if ∃ l ∈ ls, l.wave = .flat then 0 else Complex.normSq f0) +
      ((ls.zipIdx k0).map fun l => if l.1.wave = .flat then Complex.normSq (V l.2) else 0).sum / int.nmbEvents := by
  induction ls generalizing k0 f0 with
  | nil => simp
  | cons l ls ih =>
    rw [List.zipIdx_cons, List.foldl_cons, List.map_cons, List.sum_cons]
    obtain ⟨hl, hnd'⟩ := List.nodup_cons.1 hnd
    rw [ih hnd' (fun x hx => hfl x (List.mem_cons_of_mem _ hx))]
    by_cases hf : l.wave = .flat
    · have hno : ¬ ∃ x ∈ ls, x.wave = .flat := by
        rintro ⟨x, hx, hxf⟩
        have : x = l := by
          have h1 := hfl x (List.mem_cons_of_mem _ hx) hxf
          have h2 := hfl l List.mem_cons_self hf
          cases x; cases l; simp_all
        exact hl (this ▸ hx)
      have hyes : ∃ x ∈ l :: ls, x.wave = .flat := ⟨l, List.mem_cons_self, hf⟩
      rw [if_neg hno, if_pos hyes]
      simp only [if_pos hf]
      have : ampL int A ev V (l, k0) = V k0 / (Real.sqrt int.nmbEvents : ℂ) := by unfold ampL; rw [if_pos hf]
      rw [this, normSq_div_sqrt, add_div, zero_add]
    · simp only [if_neg hf, zero_add]
      by_cases hex : ∃ x ∈ ls, x.wave = .flat
      · obtain ⟨x, hx, hxf⟩ := hex
        rw [if_pos ⟨x, hx, hxf⟩, if_pos ⟨x, List.mem_cons_of_mem _ hx, hxf⟩]
      · rw [if_neg hex, if_neg]
        rintro ⟨x, hx, hxf⟩
        rcases List.mem_cons.1 hx with rfl | hx
        · exact hf hxf
        · exact hex ⟨x, hx, hxf⟩

theorem coherent_zero (V : ℕ → ℂ) (psi : Wave → ℂ) (e : ℤ) (k : ℕ) (h : ∀ l ∈ labels, l.rank ≠ k) : coherent labels V psi e k = 0 := by
  unfold coherent
  apply List.sum_eq_zero
  intro x hx
  obtain ⟨y, hy, rfl⟩ := List.mem_map.1 hx
  rw [if_neg]
  rintro ⟨_, h2⟩
  have : y.1 ∈ labels := by
    have := List.mem_zipIdx hy
    rw [this.2.2]; exact List.getElem_mem _
  exact h _ this h2

/-- the number of ranks may be any bound. -/
theorem reflIntensity_stable (V : ℕ → ℂ) (psi : Wave → ℂ) (e : ℤ) (K K' : ℕ) (hK : ∀ l ∈ labels, l.rank < K) (hK' : ∀ l ∈ labels, l.rank < K') :
    reflIntensity labels V psi K e = reflIntensity labels V psi K' e := by
  have key : ∀ M M' : ℕ, M ≤ M' → (∀ l ∈ labels, l.rank < M) → reflIntensity labels V psi M e = reflIntensity labels V psi M' e := by
    intro M M' hMM hM
    unfold reflIntensity
    refine sum_subset (range_subset_range.2 hMM) fun k _ hk => ?_
    rw [coherent_zero V psi e k, map_zero]
    intro l hl h
    have := hM l hl
    simp at hk
    omega
  rcases le_total K K' with h | h
  · exact key _ _ h hK
  · exact (key _ _ h hK').symm

theorem rankSum_eq (mr : ℕ) (f : ℕ → ℂ) : rankSum mr f = ∑ k ∈ range mr, Complex.normSq (f k) := by
  unfold rankSum
  rw [Int.toNat_natCast]
  have : ∀ (l : List ℕ) (x : ℝ), l.foldl (fun x k => x + Complex.normSq (f k)) x = x + (l.map fun k => Complex.normSq (f k)).sum := by
    intro l
    induction l with
    | nil => intro x; simp
    | cons a l ih => intro x; rw [List.foldl_cons, ih, List.map_cons, List.sum_cons, add_assoc]
  rw [this, zero_add]
  induction mr with
  | zero => simp
  | succ n ih => rw [List.range_succ, List.map_append, List.sum_append, sum_range_succ, ih]; simp

theorem single_fold (g : Label × ℕ → ℝ) (ls : List Label) : ∀ (k0 : ℕ) (w0 : ℕ → ℝ) (i : ℕ),
    ((ls.zipIdx k0).foldl (fun w e => fun k => if k = e.2 then g e else w k) w0) i =
      if h : k0 ≤ i ∧ i - k0 < ls.length then g (ls[i - k0]'h.2, i) else w0 i := by
  induction ls with
  | nil => intro k0 w0 i; simp
  | cons l ls ih =>
    intro k0 w0 i
    rw [List.zipIdx_cons, List.foldl_cons, ih]
    by_cases h : k0 + 1 ≤ i ∧ i - (k0 + 1) < ls.length
    · rw [dif_pos h, dif_pos ⟨by omega, by simp; omega⟩]
      have : i - k0 = (i - (k0 + 1)) + 1 := by omega
      simp only [this, List.getElem_cons_succ]
    · rw [dif_neg h]
      by_cases hi : i = k0
      · subst hi
        simp
      · simp only
        rw [if_neg hi, dif_neg]
        rintro ⟨h1, h2⟩
        simp at h2
        exact h ⟨by omega, by omega⟩

theorem sum_map_div' {β : Type} (f : β → ℝ) (c : ℝ) (l : List β) : (l.map f).sum / c = (l.map fun x => f x / c).sum := by
  induction l with
  | nil => simp
  | cons a l ih => rw [List.map_cons, List.map_cons, List.sum_cons, List.sum_cons, add_div, ih]

theorem waveWeights_eq (infos : List ProdInfo) (single : ℕ → ℝ) (k : ℕ) :
    waveWeights infos single k = (infos.zipIdx.map fun e => if e.1.wave = k then single e.2 else 0).sum := by
  unfold waveWeights
  have : ∀ (l : List (ProdInfo × ℕ)) (w : ℕ → ℝ), (l.foldl (fun w e => fun k => if k = e.1.wave then w k + single e.2 else w k) w) k =
      w k + (l.map fun e => if e.1.wave = k then single e.2 else 0).sum := by
    intro l
    induction l with
    | nil => intro w; simp
    | cons e l ih =>
      intro w
      rw [List.foldl_cons, ih, List.map_cons, List.sum_cons]
      by_cases h : k = e.1.wave
      · rw [if_pos h, if_pos h.symm, add_assoc]
      · rw [if_neg h, if_neg (Ne.symm h), zero_add]
  rw [this, zero_add]

theorem maxRank_spec (hL : Lists r labels) (n : ℕ) (hn : 0 < n) : ∃ mr : ℕ, maxRank (labels.map (infoOf r)) n = mr ∧ ∀ l ∈ labels, l.rank < mr := by
  have key : ∀ (ps : List ProdInfo) (m : ℤ), m ≤ ps.foldl (fun m p => if m < p.rank then p.rank else m) m ∧
      ∀ p ∈ ps, p.rank ≤ ps.foldl (fun m p => if m < p.rank then p.rank else m) m := by
    intro ps
    induction ps with
    | nil => intro m; simp
    | cons p ps ih =>
      intro m
      rw [List.foldl_cons]
      obtain ⟨h1, h2⟩ := ih (if m < p.rank then p.rank else m)
      refine ⟨?_, ?_⟩
      · refine le_trans ?_ h1; split_ifs <;> omega
      · intro q hq
        rcases List.mem_cons.1 hq with rfl | hq
        · refine le_trans ?_ h1; split_ifs <;> omega
        · exact h2 q hq
  obtain ⟨h1, h2⟩ := key (labels.map (infoOf r)) 0
  refine ⟨(maxRank (labels.map (infoOf r)) n).toNat, ?_, ?_⟩
  · unfold maxRank; omega
  · intro l hl
    have hc := h2 (infoOf r l) (List.mem_map.2 ⟨l, hl, rfl⟩)
    have hcode : (infoOf r l).rank = (l.rank : ℤ) ∨ l.rank = 0 := by
      cases hw : l.wave with
      | flat => exact Or.inr (hL.hflat l hl hw)
      | pw w => left; unfold infoOf Label.code; rw [hw]
    unfold maxRank
    rcases hcode with h | h <;> omega

/-- what the sums are for a whole event. -/
theorem ampSums_eq {int : IntMat} {files : Name → Option AmpFile} {A : Wave → ℕ → ℂ} {N : ℕ} (hL : Lists r labels) (hu : Usable labels int files A N)
    (ev : ℕ) (hev : ev < N) (mr : ℕ) (hmr : ∀ l ∈ labels, l.rank < mr) (V : ℕ → ℂ) (K : ℕ) (hK : ∀ l ∈ labels, l.rank < K) :
    ∃ t, ampSums int r.waveNames (labels.map (infoOf r)) mr (r.waveNames.map (decayOf files ev)) V = .ok t ∧
      rankSum mr t.pos = reflIntensity labels V (normalised int A ev) K 1 / int.nmbEvents ∧
      rankSum mr t.neg = reflIntensity labels V (normalised int A ev) K (-1) / int.nmbEvents ∧
      Complex.normSq t.flat = flatIntensity labels V / int.nmbEvents ∧
      (∀ (i : ℕ) (l : Label), labels[i]? = some l → t.single i = Complex.normSq (ampL int A ev V (l, i))) ∧
      t.weight mr = modelIntensity labels V (normalised int A ev) K / int.nmbEvents := by
  obtain ⟨t, h1, h2⟩ := ampSums_after hL hu ev hev mr (fun l hl => by exact_mod_cast hmr l hl) V labels.zipIdx (by
    intro e he
    have := List.mem_zipIdx he
    rw [this.2.2]; exact List.getElem_mem _) ⟨fun _ => 0, fun _ => 0, 0, fun _ => 0⟩
  have hz : (labels.zipIdx.map fun e => (infoOf r e.1, e.2)) = (labels.map (infoOf r)).zipIdx := by
    refine List.ext_getElem (by simp) fun i h1 h2 => ?_
    simp
  have hp : rankSum mr t.pos = reflIntensity labels V (normalised int A ev) K 1 / int.nmbEvents := by
    rw [rankSum_eq, reflIntensity_stable V _ 1 K mr hK hmr]
    unfold reflIntensity
    rw [sum_div]
    refine sum_congr rfl fun k _ => ?_
    rw [h2.hpos k, zero_add, sum_ampL_eq int A ev V 1 (by decide) k, normSq_div_sqrt]
    rfl
  have hn : rankSum mr t.neg = reflIntensity labels V (normalised int A ev) K (-1) / int.nmbEvents := by
    rw [rankSum_eq, reflIntensity_stable V _ (-1) K mr hK hmr]
    unfold reflIntensity
    rw [sum_div]
    refine sum_congr rfl fun k _ => ?_
    rw [h2.hneg k, zero_add, sum_ampL_eq int A ev V (-1) (by decide) k, normSq_div_sqrt]
    rfl
  have hf : Complex.normSq t.flat = flatIntensity labels V / int.nmbEvents := by
    rw [h2.hflat, flat_fold int A ev V labels hL.hnodup hL.hflat]
    simp only [map_zero, ite_self, zero_add]
    rfl
  refine ⟨t, ?_, hp, hn, hf, ?_, ?_⟩
  · unfold ampSums; rw [← hz]; exact h1
  · intro i l hi
    obtain ⟨hlt, rfl⟩ := List.getElem?_eq_some_iff.1 hi
    rw [h2.hsingle, single_fold (fun e => Complex.normSq (ampL int A ev V e)) labels 0 _ i, dif_pos ⟨Nat.zero_le _, by simpa using hlt⟩]
    simp
  · unfold Sums.weight modelIntensity
    rw [hp, hn, hf, add_div, add_div]

/-- **C65.** Every event is written, with the intensity of the fitted model for its decay amplitudes (normalised by their integrals, per event of
the integral) as weight; likewise the weights of the reflectivities, of the flat wave, of single waves, and of the other samples of amplitudes. -/
theorem weights_spec {int : IntMat} {files : Name → Option AmpFile} {A : Wave → ℕ → ℂ} {N : ℕ} (hL : Lists r labels) (hu : Usable labels int files A N)
    (varied : List (ℕ → ℂ)) (K : ℕ) (hK : ∀ l ∈ labels, l.rank < K) :
    ∃ outs, weightEvents int r varied files = .ok outs ∧ outs.length = N ∧ ∀ (ev : ℕ) (o : EventOut), outs[ev]? = some o →
      o.weight = modelIntensity labels r.prodAmps (normalised int A ev) K / int.nmbEvents ∧
      o.posRef = reflIntensity labels r.prodAmps (normalised int A ev) K 1 / int.nmbEvents ∧
      o.negRef = reflIntensity labels r.prodAmps (normalised int A ev) K (-1) / int.nmbEvents ∧
      o.flat = flatIntensity labels r.prodAmps / int.nmbEvents ∧
      (∀ (i : ℕ) (l : Label), labels[i]? = some l → o.prodAmps i =
        Complex.normSq (r.prodAmps i * (if l.wave = .flat then 1 else normalised int A ev l.wave)) / int.nmbEvents) ∧
      (∀ (w : ℕ) (l : Label), l ∈ labels → r.waveNames[w]? = some l.wave.text →
        o.waves w = waveIntensity labels r.prodAmps (normalised int A ev) l.wave / int.nmbEvents) ∧
      o.samples = (r.prodAmps :: varied).map fun V => modelIntensity labels V (normalised int A ev) K / int.nmbEvents := by
  obtain ⟨mr, hmr, hmr'⟩ := maxRank_spec hL (1 + varied.length) (by omega)
  have hopen : openAmpFiles files r.waveNames = (N, r.waveNames.map (treeOf files)) := by
    rw [openAmpFiles_eq files N hu.hN r.waveNames, if_pos]
    · obtain ⟨l, hl, hf⟩ := hu.hsome
      exact ⟨l.wave.text, (hL.hwaves.2 _).2 ⟨l, hl, rfl⟩, fun h => hf ((text_flat_iff hL l hl).1 h)⟩
    · intro n hn hf
      obtain ⟨l, hl, rfl⟩ := (hL.hwaves.2 n).1 hn
      exact ⟨_, hu.hfiles l hl (fun h => hf ((text_flat_iff hL l hl).2 h)), by simp⟩
  have hone : ∀ ev ∈ List.range N, ∃ o, weighEvent int r.waveNames (labels.map (infoOf r)) r.prodAmps varied (r.waveNames.map (treeOf files)) ev = .ok o ∧
      (o.weight = modelIntensity labels r.prodAmps (normalised int A ev) K / int.nmbEvents ∧
      o.posRef = reflIntensity labels r.prodAmps (normalised int A ev) K 1 / int.nmbEvents ∧
      o.negRef = reflIntensity labels r.prodAmps (normalised int A ev) K (-1) / int.nmbEvents ∧
      o.flat = flatIntensity labels r.prodAmps / int.nmbEvents ∧
      (∀ (i : ℕ) (l : Label), labels[i]? = some l → o.prodAmps i =
        Complex.normSq (r.prodAmps i * (if l.wave = .flat then 1 else normalised int A ev l.wave)) / int.nmbEvents) ∧
      (∀ (w : ℕ) (l : Label), l ∈ labels → r.waveNames[w]? = some l.wave.text →
        o.waves w = waveIntensity labels r.prodAmps (normalised int A ev) l.wave / int.nmbEvents) ∧
      o.samples = (r.prodAmps :: varied).map fun V => modelIntensity labels V (normalised int A ev) K / int.nmbEvents) := by
    intro ev hev
    have hev := List.mem_range.1 hev
    obtain ⟨t, h1, h2, h3, h4, h5, h6⟩ := ampSums_eq hL hu ev hev mr hmr' r.prodAmps K hK
    obtain ⟨ts, h7, h8⟩ := Rpwa.Best.mapM_ok_of (fun V => ampSums int r.waveNames (labels.map (infoOf r)) mr (r.waveNames.map (decayOf files ev)) V)
      (fun V t => t.weight mr = modelIntensity labels V (normalised int A ev) K / int.nmbEvents) varied (fun V _ => by
        obtain ⟨t, k1, _, _, _, _, k6⟩ := ampSums_eq hL hu ev hev mr hmr' V K hK
        exact ⟨t, k1, k6⟩)
    have hamp : ∀ (l : Label) (i : ℕ), Complex.normSq (ampL int A ev r.prodAmps (l, i)) =
        Complex.normSq (r.prodAmps i * (if l.wave = .flat then 1 else normalised int A ev l.wave)) / int.nmbEvents := by
      intro l i
      unfold ampL
      rw [normSq_div_sqrt]
      by_cases hf : l.wave = .flat
      · simp [hf]
      · simp [hf]
    refine ⟨⟨t.weight mr, rankSum mr t.pos, rankSum mr t.neg, Complex.normSq t.flat, waveWeights (labels.map (infoOf r)) t.single, t.single,
      t.weight mr :: ts.map (Sums.weight mr)⟩, ?_, h6, h2, h3, h4, ?_, ?_, ?_⟩
    · unfold weighEvent
      rw [decay_mapM hL hu ev hev]
      simp only [Outcome.ok_bind]
      rw [hmr, h1]
      simp only [Outcome.ok_bind]
      rw [h7]
      rfl
    · intro i l hi
      exact (h5 i l hi).trans (hamp l i)
    · intro w l hl hw
      show waveWeights _ _ w = _
      rw [waveWeights_eq]
      unfold waveIntensity
      have hwl : waveIdx r l = w := by
        have h1 := waveIdx_spec hL l hl
        exact (List.getElem?_inj (List.getElem?_eq_some_iff.1 h1).1 hL.hwaves.1).1 (h1.trans hw.symm)
      have hz : (labels.map (infoOf r)).zipIdx = labels.zipIdx.map fun e => (infoOf r e.1, e.2) := by
        refine List.ext_getElem (by simp) fun i h1 h2 => ?_
        simp
      rw [hz, List.map_map, sum_map_div']
      refine congrArg List.sum (List.map_congr_left fun e he => ?_)
      have hme := List.mem_zipIdx he
      have hlt : e.2 < labels.length := by simpa using hme.2.1
      have hel : labels[e.2]? = some e.1 := by rw [List.getElem?_eq_getElem hlt]; exact congrArg some (by simpa using hme.2.2.symm)
      have hem : e.1 ∈ labels := List.mem_of_getElem? hel
      show (if waveIdx r e.1 = w then t.single e.2 else 0) = _
      by_cases he : e.1.wave = l.wave
      · have : waveIdx r e.1 = w := by rw [← hwl]; unfold waveIdx; rw [he]
        rw [if_pos this, if_pos he, h5 e.2 e.1 hel, hamp, he]
      · have : waveIdx r e.1 ≠ w := fun h => he (wave_eq_of_idx hL e.1 l hem hl (h.trans hwl.symm))
        rw [if_neg this, if_neg he, zero_div]
    · show t.weight mr :: ts.map (Sums.weight mr) = _
      rw [List.map_cons, h6]
      congr 1
      refine List.ext_getElem (by simp [h8.length_eq]) fun i k1 k2 => ?_
      rw [List.getElem_map, List.getElem_map]
      exact (List.forall₂_iff_get.1 h8).2 i (by simpa using k2) (by simpa using k1)
  obtain ⟨outs, ho, hP⟩ := Rpwa.Best.mapM_ok_of _ _ (List.range N) hone
  refine ⟨outs, ?_, by have := hP.length_eq; simpa using this.symm, ?_⟩
  · unfold weightEvents
    rw [prodInfos_eq hL]
    simp only [Outcome.ok_bind]
    rw [waveNamesOf_eq hL, hopen]
    simp only [List.length_map, ne_eq, not_true, if_false]
    rw [if_neg (by have := hu.hN; omega)]
    exact ho
  · intro ev o hev
    obtain ⟨hlt, rfl⟩ := List.getElem?_eq_some_iff.1 hev
    have hlen := hP.length_eq
    have := (List.forall₂_iff_get.1 hP).2 ev (by omega) hlt
    simpa using this

end Rpwa.Wgt
