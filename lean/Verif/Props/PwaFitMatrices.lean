import Verif.Props.PwaFit
import Verif.Lemmas.FitNames
/-! # C60: the integral matrices of a fit result -/
namespace Rpwa.PwaFit

open Rpwa.Lik Rpwa.Fit

theorem waveNameOf_ampName (wl : WaveList) (s : Slot) : waveNameOf (ampName wl s).toList = (wl.name s.2.1 s.2.2).toList := by
  have h : (ampName wl s).toList = 'V' :: ((Nat.repr s.1).toList ++ '_' :: (wl.name s.2.1 s.2.2).toList) := by
    unfold ampName
    simp only [String.toList_append, List.append_assoc]
    rfl
  rw [h]
  unfold waveNameOf
  rw [if_neg (by simp), List.dropWhile_cons_of_pos (by decide), List.dropWhile_append_of_pos, List.dropWhile_cons_of_neg (by decide)]
  · simp
  · intro c hc
    have := digits_isDigit s.1 c hc
    simp only [ne_eq, decide_not, Bool.not_eq_eq_eq_not, Bool.not_true, decide_eq_false_iff_not]
    rintro rfl
    exact absurd this (by decide)

theorem appear_nodup (a ws : List Name) (h : (ws ++ a).Nodup) : appear a ws = ws ++ a := by
  induction a generalizing ws with
  | nil => simp [appear]
  | cons n ns ih =>
    have hn : n ∉ ws := by
      intro hc
      exact (List.nodup_append.1 h).2.2 n hc n (by simp) rfl
    rw [appear_cons, if_neg hn, ih _ (by simpa using h)]
    simp

theorem appear_subset (b ws : List Name) (h : ∀ n ∈ b, n ∈ ws) : appear b ws = ws := by
  induction b with
  | nil => rfl
  | cons n ns ih =>
    rw [appear_cons, if_pos (h n (by simp))]
    exact ih fun m hm => h m (by simp [hm])

theorem appear_append (a b ws : List Name) : appear (a ++ b) ws = appear b (appear a ws) := by
  unfold appear; rw [List.foldl_append]

/-- the amplitudes of rank 0 are those of all waves, in the order of the waves. -/
theorem ampSlots_succ (rank : ℕ) (nW : ℕ → ℕ) : ∃ rest : List Slot, ampSlots (rank + 1) nW = (waveIxs nW).map (fun i => (0, i)) ++ rest ∧
    ∀ s ∈ rest, s.2 ∈ waveIxs nW := by
  unfold ampSlots slots
  rw [List.range_succ_eq_map (n := rank), List.flatMap_cons, List.filter_append]
  refine ⟨_, congrArg₂ (· ++ ·) ?_ rfl, ?_⟩
  · rw [List.filter_eq_self.2]
    · simp [waveIxs, List.map_flatMap, Function.comp_def]
    · intro s hs
      simp only [List.mem_flatMap, List.mem_map, List.mem_range] at hs
      obtain ⟨e, _, w, _, rfl⟩ := hs
      simp
  · intro s hs
    have hs := (List.mem_filter.1 hs).1
    simp only [List.mem_flatMap, List.mem_map, List.mem_range] at hs
    obtain ⟨r, _, e, he, w, hw, rfl⟩ := hs
    rw [mem_waveIxs]
    exact ⟨he, hw⟩

/-- the waves of a stored fit: those of the likelihood, in its order, and the flat wave. -/
theorem fill_waveNames (l : Lik) (m : ℝ) (hm : l.fn.Matches l.waves l.pars m) (o : Options) (bin : List (Name × ℝ × ℝ)) (par : ℕ → ℝ)
    (v : ℝ) (cov : ℕ → ℕ → ℝ) (c h : Bool) (hrank : 0 < l.fn.rank)
    (hinj : ∀ i ∈ waveIxs l.fn.nW, ∀ j ∈ waveIxs l.fn.nW, l.waves.name i.1 i.2 = l.waves.name j.1 j.2 → i = j)
    (hflat : ∀ i ∈ waveIxs l.fn.nW, l.waves.name i.1 i.2 ≠ "flat") :
    (FitResult.new.fillA (fillFitResult l o bin par v cov c h)).waveNames =
      (waveIxs l.fn.nW).map (fun i => (l.waves.name i.1 i.2).toList) ++ ["flat".toList] := by
  have hst := stored_of_fill_slots l m hm o bin par v cov c h
  set a := fillFitResult l o bin par v cov c h with ha
  obtain ⟨rest, r1, r2⟩ : ∃ rest : List Slot, ampSlots l.fn.rank l.fn.nW = (waveIxs l.fn.nW).map (fun i => (0, i)) ++ rest ∧
      ∀ s ∈ rest, s.2 ∈ waveIxs l.fn.nW := by
    have := ampSlots_succ (l.fn.rank - 1) l.fn.nW
    rwa [Nat.sub_add_cancel hrank] at this
  let nm : WaveIx → Name := fun i => (l.waves.name i.1 i.2).toList
  have hnm : ∀ i ∈ waveIxs l.fn.nW, nm i ≠ "flat".toList := by
    intro i hi hc
    exact hflat i hi (String.toList_injective hc)
  have hnodup : ((waveIxs l.fn.nW).map nm).Nodup := by
    rw [List.nodup_map_iff_inj_on (nodup_waveIxs _)]
    intro i hi j hj hc
    exact hinj i hi j hj (String.toList_injective hc)
  have hall : (FitResult.new.fillA a).waveNames = (waveIxs l.fn.nW).map nm ++ ["flat".toList] := by
    have e : (FitResult.new.fillA a).waveNames = appear (a.prodAmpNames.map waveNameOf) [] := waveLoop_fst _ _ _ _
    rw [e, hst.hnames, List.map_append, List.map_map, r1, List.map_append, List.map_map]
    have f1 : ((waveNameOf ∘ fun s => (ampName l.waves s).toList) ∘ fun i : WaveIx => ((0, i) : Slot)) = nm := by
      funext i; exact waveNameOf_ampName l.waves (0, i)
    have f2 : (waveNameOf ∘ fun s : Slot => (ampName l.waves s).toList) = fun s => nm s.2 := by
      funext s; exact waveNameOf_ampName l.waves s
    rw [f1, f2, appear_append, appear_append, appear_nodup _ [] (by simpa using hnodup), List.nil_append,
      appear_subset (rest.map fun s => nm s.2)]
    · have f3 : ["V_flat".toList].map waveNameOf = ["flat".toList] := by decide
      rw [f3, appear_nodup]
      rw [List.nodup_append]
      refine ⟨hnodup, by simp, ?_⟩
      intro x hx y hy hxy
      obtain ⟨i, hi, rfl⟩ := List.mem_map.1 hx
      rw [List.mem_singleton] at hy
      exact hnm i hi (hxy.trans hy)
    · intro n hn
      obtain ⟨s, hs', rfl⟩ := List.mem_map.1 hn
      exact List.mem_map.2 ⟨s.2, r2 s hs', rfl⟩
  exact hall

/-- **C60, integral matrices.** If the waves have different names, none of them called `flat`, the integral matrices and phase-space
integrals stored with a fit belong to the amplitudes they are looked up for. -/
theorem fill_matrices (l : Lik) (m : ℝ) (hm : l.fn.Matches l.waves l.pars m) (o : Options) (bin : List (Name × ℝ × ℝ)) (par : ℕ → ℝ)
    (v : ℝ) (cov : ℕ → ℕ → ℝ) (c h : Bool) (hs : o.saveSpace = false) (hrank : 0 < l.fn.rank)
    (hinj : ∀ i ∈ waveIxs l.fn.nW, ∀ j ∈ waveIxs l.fn.nW, l.waves.name i.1 i.2 = l.waves.name j.1 j.2 → i = j)
    (hflat : ∀ i ∈ waveIxs l.fn.nW, l.waves.name i.1 i.2 ≠ "flat") :
    StoredMatrices l (ampSlots l.fn.rank l.fn.nW) (FitResult.new.fillA (fillFitResult l o bin par v cov c h)) := by
  have hst := stored_of_fill_slots l m hm o bin par v cov c h
  set a := fillFitResult l o bin par v cov c h with ha
  have hw : l.waves.nW = l.fn.nW := hm.waves.symm
  have e1 : a.normIntegral = some (integralMatrix l.fn.nW l.ints.ints.norm 1) := by
    rw [ha, ← hw]; unfold fillFitResult; simp [hs]
  have e2 : a.accNormIntegral = some (integralMatrix l.fn.nW l.ints.ints.acc l.ints.totAcc) := by
    rw [ha, ← hw]; unfold fillFitResult; simp [hs]
  have e3 : a.phaseSpaceIntegral = some ((waveIxs l.fn.nW).map l.ints.phaseSpace ++ [1]) := by
    rw [ha, ← hw]; unfold fillFitResult; simp [hs]
  obtain ⟨_, _, _, _, _, _, _, _, _, _, _, g1, g2, g3, _⟩ := fill_fields FitResult.new a
  have g1 := g1 _ e1
  have g2 := g2 _ e2
  have g3 := g3 _ e3
  let nm : WaveIx → Name := fun i => (l.waves.name i.1 i.2).toList
  have hnm : ∀ i ∈ waveIxs l.fn.nW, nm i ≠ "flat".toList := by
    intro i hi hc
    exact hflat i hi (String.toList_injective hc)
  have hall : (FitResult.new.fillA a).waveNames = (waveIxs l.fn.nW).map nm ++ ["flat".toList] := by
    rw [ha]; exact fill_waveNames l m hm o bin par v cov c h hrank hinj hflat
  have hlen : (waveIxs l.fn.nW).length = l.fn.nW 0 + l.fn.nW 1 := by
    unfold waveIxs
    simp [List.range_succ]
  have hget : ∀ (i : ℕ) (s : Slot), (ampSlots l.fn.rank l.fn.nW)[i]? = some s → ∃ k, (FitResult.new.fillA a).normIntIndexMap i = some k ∧
      (waveIxs l.fn.nW)[k]? = some s.2 ∧ k < l.fn.nW 0 + l.fn.nW 1 := by
    intro i s hi
    have hmem := (hst.hfree s).1 (List.mem_of_getElem? hi)
    have hsw : s.2 ∈ waveIxs l.fn.nW := (mem_waveIxs _ _).2 ⟨hmem.2.1, hmem.2.2.1⟩
    have hn : a.prodAmpNames[i]? = some (ampName l.waves s).toList := by
      rw [hst.hnames, List.getElem?_append_left (by simpa using (List.getElem?_eq_some_iff.1 hi).1), List.getElem?_map, hi]
      rfl
    obtain ⟨k, k1, k2⟩ := fill_fresh_indexMap a (Or.inl (by rw [e1]; rfl)) i _ hn
    rw [waveNameOf_ampName, hall] at k2
    have hk : k < (waveIxs l.fn.nW).length := by
      by_contra hc
      rw [List.getElem?_append_right (by simpa using hc)] at k2
      have := List.mem_of_getElem? k2
      rw [List.mem_singleton] at this
      exact hnm s.2 hsw this
    rw [List.getElem?_append_left (by simpa using hk), List.getElem?_map, List.getElem?_eq_getElem hk] at k2
    have k3 : (waveIxs l.fn.nW)[k] = s.2 := hinj _ (List.getElem_mem hk) _ hsw (String.toList_injective (Option.some.inj k2))
    exact ⟨k, k1, by rw [List.getElem?_eq_getElem hk, k3], by rw [← hlen]; exact hk⟩
  have hwave : ∀ k i, (waveIxs l.fn.nW)[k]? = some i → waveAt l.fn.nW k = i := by
    intro k i hk; unfold waveAt; rw [List.getD_eq_getElem?_getD, hk]; rfl
  obtain ⟨kf, f1, f2⟩ : ∃ k, (FitResult.new.fillA a).normIntIndexMap (ampSlots l.fn.rank l.fn.nW).length = some k ∧ k = l.fn.nW 0 + l.fn.nW 1 := by
    have hn : a.prodAmpNames[(ampSlots l.fn.rank l.fn.nW).length]? = some "V_flat".toList := by
      rw [hst.hnames, List.getElem?_append_right (by simp)]
      simp
    obtain ⟨k, k1, k2⟩ := fill_fresh_indexMap a (Or.inl (by rw [e1]; rfl)) _ _ hn
    refine ⟨k, k1, ?_⟩
    have f3 : waveNameOf "V_flat".toList = "flat".toList := by decide
    rw [f3, hall] at k2
    have hlt := (List.getElem?_eq_some_iff.1 k2).1
    rw [List.length_append, List.length_map, List.length_singleton, hlen] at hlt
    by_contra hne
    have hk : k < (waveIxs l.fn.nW).length := by rw [hlen]; omega
    rw [List.getElem?_append_left (by simpa using hk), List.getElem?_map, List.getElem?_eq_getElem hk] at k2
    exact hnm _ (List.getElem_mem hk) (Option.some.inj k2)
  constructor
  · intro i j s t hi hj
    obtain ⟨x, x1, x2, x3⟩ := hget i s hi
    obtain ⟨y, y1, y2, y3⟩ := hget j t hj
    refine ⟨x, y, x1, y1, ?_, ?_, ?_⟩
    · rw [g1]
      simp only [integralMatrix]
      rw [if_pos ⟨x3, y3⟩, hwave _ _ x2, hwave _ _ y2]
    · rw [g2]
      simp only [integralMatrix]
      rw [if_pos ⟨x3, y3⟩, hwave _ _ x2, hwave _ _ y2]
    · rw [g3, List.getD_eq_getElem?_getD, List.getElem?_append_left (by rw [List.length_map, hlen]; exact x3), List.getElem?_map, x2]
      rfl
  · refine ⟨kf, f1, ?_, ?_, ?_, ?_⟩
    · rw [g1, f2]; simp [integralMatrix]
    · rw [g2, f2]; simp [integralMatrix]
    · rw [g3, f2, List.getD_eq_getElem?_getD, List.getElem?_append_right (by rw [List.length_map, hlen])]
      simp [hlen]
    · intro i s hi
      obtain ⟨x, x1, x2, x3⟩ := hget i s hi
      refine ⟨x, x1, ?_, ?_, ?_, ?_⟩
      · rw [g1, f2]; simp only [integralMatrix]; rw [if_neg (by omega), if_neg (by omega)]
      · rw [g1, f2]; simp only [integralMatrix]; rw [if_neg (by omega), if_neg (by omega)]
      · rw [g2, f2]; simp only [integralMatrix]; rw [if_neg (by omega), if_neg (by omega)]
      · rw [g2, f2]; simp only [integralMatrix]; rw [if_neg (by omega), if_neg (by omega)]

end Rpwa.PwaFit
