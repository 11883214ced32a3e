import Verif.Lemmas.FitParameters
import Mathlib.Tactic.NormNum
/-!
# C23: fit parameters and production amplitudes are in bijection -/
namespace Rpwa.Lik

/-- `buildParDataStruct` never runs out of its parameter array; it fails exactly for an empty wave list. -/
theorem buildParDataStruct_returns (wl : WaveList) (rank : ℕ) (m : ℝ) :
    ∃ r, buildParDataStruct wl rank m = .ok r ∧ (r = none ↔ wl.nW 0 + wl.nW 1 = 0) := by
  unfold buildParDataStruct
  by_cases h : wl.nW 0 + wl.nW 1 = 0
  · rw [if_pos h]; exact ⟨none, rfl, by simp [h]⟩
  · rw [if_neg h]
    have hc := countPars_eq rank wl.nW
    have hn : (countPars rank wl.nW).toNat = (comps (slots rank wl.nW)).length + 1 := by omega
    obtain ⟨d, e1, e2, e3, e4, e5⟩ := build_inv wl m ((countPars rank wl.nW).toNat) (slots rank wl.nW) (nodup_slots _ _)
      (by omega)
    simp only [e1, Outcome.ok_bind]
    unfold setPar
    rw [if_pos (by rw [e3, hn]; simp)]
    exact ⟨_, rfl, by simp only [reduceCtorEq, h]⟩

/-- **C23, layout.** There is an enumeration `comp` of exactly the free components of the production amplitudes, without repetition;
the function has one parameter for each of them, in this order, and one more for the flat wave.  Parameter `k` carries the wave name,
rank, threshold and part of component `k` and is fixed iff the wave's threshold is not below the mass; the number of fixed parameters
is right. -/
theorem parameters_enumerate_components (wl : WaveList) (rank : ℕ) (m : ℝ) (h : wl.nW 0 + wl.nW 1 ≠ 0) :
    ∃ comp : List Comp, comp.Nodup ∧ (∀ c, c ∈ comp ↔ Free rank wl.nW c) ∧
      ∃ d, buildParDataStruct wl rank m = .ok (some d) ∧ d.nmbPars = comp.length + 1 ∧ d.params.length = d.nmbPars ∧
        (∀ (k : ℕ) (c : Comp), comp[k]? = some c → ∃ p : FitPar, d.params[k]? = some p ∧ p.waveName = wl.name c.1.2.1 c.1.2.2 ∧ p.rank = c.1.1 ∧
          p.threshold = wl.threshold c.1.2.1 c.1.2.2 ∧ p.realPart = c.2 ∧
          (p.fixed = true ↔ wl.threshold c.1.2.1 c.1.2.2 ≠ 0 ∧ m ≤ wl.threshold c.1.2.1 c.1.2.2)) ∧
        (∃ p : FitPar, d.params[comp.length]? = some p ∧ p.waveName = "flat" ∧ p.fixed = false ∧ p.realPart = true) ∧
        d.nmbParsFixed = (d.params.filter (·.fixed)).length ∧
        (∀ s, s.1 < rank → s.2.1 < 2 → s.2.2 < wl.nW s.2.1 →
          (∀ k, (d.map s).1 = some k ↔ comp[k]? = some (s, true)) ∧ (∀ k, (d.map s).2 = some k ↔ comp[k]? = some (s, false))) ∧
        (∀ par s b, ¬ Free rank wl.nW (s, b) → part ((copyFromParArray rank wl.nW par).1 s) b = 0) ∧
        (∀ (par : ℕ → ℝ) (k : ℕ) (c : Comp), comp[k]? = some c → part ((copyFromParArray rank wl.nW par).1 c.1) c.2 = par k) ∧
        (∀ par, (copyFromParArray rank wl.nW par).2 = par comp.length) ∧
        (∀ (a : Amps) (f : ℝ) (out : ℕ → ℝ) (k : ℕ) (c : Comp), comp[k]? = some c → copyToParArray rank wl.nW d a f out k = part (a c.1) c.2) ∧
        (∀ a f out, copyToParArray rank wl.nW d a f out comp.length = f) ∧
        (∀ a f out k, comp.length < k → copyToParArray rank wl.nW d a f out k = out k) := by
  have hnd := nodup_slots rank wl.nW
  have hcn := nodup_comps hnd
  refine ⟨comps (slots rank wl.nW), hcn, mem_comps_slots _ _, ?_⟩
  unfold buildParDataStruct
  rw [if_neg h]
  have hc := countPars_eq rank wl.nW
  have hn : (countPars rank wl.nW).toNat = (comps (slots rank wl.nW)).length + 1 := by omega
  obtain ⟨d, e1, e2, e3, e4, e5⟩ := build_inv wl m ((countPars rank wl.nW).toNat) (slots rank wl.nW) hnd (by omega)
  simp only [e1, Outcome.ok_bind]
  unfold setPar
  rw [if_pos (by rw [e3, hn]; simp)]
  set L := comps (slots rank wl.nW) with hL
  have hpars : d.params.set L.length ⟨"flat", 0, 0, false, true⟩ = L.map (compPar wl m) ++ [⟨"flat", 0, 0, false, true⟩] := by
    rw [e3, hn, List.set_append_right _ _ (by simp)]
    simp
  have hget : ∀ k c, L[k]? = some c → k < L.length := fun k c hk => (List.getElem?_eq_some_iff.1 hk).1
  have hidx : ∀ s ∈ slots rank wl.nW, ∀ b k, idx (slots rank wl.nW) (s, b) = some k ↔ L[k]? = some (s, b) := by
    intro s _ b k
    unfold idx
    rw [← hL]
    constructor
    · intro hi
      split at hi
      · rename_i hm
        simp only [Option.some.injEq] at hi
        rw [← hi, List.getElem?_eq_getElem (List.idxOf_lt_length_of_mem hm), List.getElem_idxOf]
      · cases hi
    · intro hk
      obtain ⟨hk1, hk2⟩ := List.getElem?_eq_some_iff.1 hk
      have hm : (s, b) ∈ L := hk2 ▸ List.getElem_mem hk1
      rw [if_pos hm, ← hk2, hcn.idxOf_getElem]
  obtain ⟨cf1, cf2⟩ : _ ∧ _ := ⟨fun par => (copyFrom_inv par (slots rank wl.nW) hnd).1,
    fun par => (copyFrom_inv par (slots rank wl.nW) hnd).2⟩
  have hlen : d.nmbPars = L.length + 1 := by rw [e2, hn]
  have cto : ∀ a out k, (slots rank wl.nW).foldl (copyToStep d.map a) out k =
      (match L[k]? with | some c => part (a c.1) c.2 | none => out k) := by
    intro a out k
    exact copyTo_inv a out d.map (slots rank wl.nW) e4 hnd (slots rank wl.nW) [] (by simp) k
  refine ⟨_, rfl, hlen, ?_, ?_, ?_, ?_, ?_, ?_, ?_, ?_, ?_, ?_, ?_⟩
  · simp only; rw [hpars, hlen]; simp
  · intro k c hk
    refine ⟨compPar wl m c, ?_, rfl, rfl, rfl, rfl, ?_⟩
    · simp only; rw [hpars, List.getElem?_append_left (by rw [List.length_map]; exact hget k c hk), List.getElem?_map, hk]; rfl
    · simp [compPar, belowThreshold]
  · refine ⟨⟨"flat", 0, 0, false, true⟩, ?_, rfl, rfl, rfl⟩
    simp only; rw [hpars, List.getElem?_append_right (by simp)]; simp
  · simp only; rw [hpars, e5, List.filter_append, List.length_append]
    simp [List.filter_map, Function.comp_def]
  · intro s h1 h2 h3
    have hs := (mem_slots rank wl.nW s).2 ⟨h1, h2, h3⟩
    simp only [e4 s hs]
    exact ⟨fun k => hidx s hs true k, fun k => hidx s hs false k⟩
  · intro par s b hf
    have : (s, b) ∉ L := fun hm => hf ((mem_comps_slots _ _ _).1 hm)
    unfold copyFromParArray
    simp only [cf2 par s]
    cases b <;> simp [part, parAt, ← hL, this]
  · intro par k c hk
    obtain ⟨hk1, hk2⟩ := List.getElem?_eq_some_iff.1 hk
    have hm : c ∈ L := hk2 ▸ List.getElem_mem hk1
    have hi : L.idxOf c = k := by rw [← hk2, hcn.idxOf_getElem]
    unfold copyFromParArray
    simp only [cf2 par c.1]
    obtain ⟨s, b⟩ := c
    cases b <;> simp [part, parAt, ← hL, hm, hi]
  · intro par
    unfold copyFromParArray
    simp only [cf1 par]; rfl
  · intro a f out k c hk
    have := hget k c hk
    unfold copyToParArray
    simp only
    rw [hlen, if_neg (by omega), cto, hk]
  · intro a f out
    unfold copyToParArray
    simp only
    rw [hlen, if_pos (by omega)]
  · intro a f out k hk
    unfold copyToParArray
    simp only
    rw [hlen, if_neg (by omega), cto, List.getElem?_eq_none (by omega)]

/-- **C23, parameters → amplitudes → parameters.** -/
theorem copyTo_copyFrom (wl : WaveList) (rank : ℕ) (m : ℝ) (d : ParData) (hd : buildParDataStruct wl rank m = .ok (some d))
    (par out : ℕ → ℝ) (k : ℕ) (hk : k < d.nmbPars) :
    copyToParArray rank wl.nW d (copyFromParArray rank wl.nW par).1 (copyFromParArray rank wl.nW par).2 out k = par k := by
  have h : wl.nW 0 + wl.nW 1 ≠ 0 := by
    obtain ⟨r, h1, h2⟩ := buildParDataStruct_returns wl rank m
    rw [hd] at h1; cases h1
    intro h0; simpa using h2.2 h0
  obtain ⟨comp, _, _, d', hd', hn, _, _, _, _, _, _, g1, g2, g3, g4, _⟩ := parameters_enumerate_components wl rank m h
  rw [hd] at hd'; cases hd'
  by_cases hk' : k = comp.length
  · subst hk'; rw [g4, g2]
  · have : k < comp.length := by omega
    rw [g3 _ _ _ k comp[k] (List.getElem?_eq_getElem this), g1 par k _ (List.getElem?_eq_getElem this)]

/-- **C23, amplitudes → parameters → amplitudes**, for amplitudes that obey the rank condition. -/
theorem copyFrom_copyTo (wl : WaveList) (rank : ℕ) (m : ℝ) (d : ParData) (hd : buildParDataStruct wl rank m = .ok (some d))
    (a : Amps) (ha : RankCondition rank wl.nW a) (f : ℝ) (out : ℕ → ℝ) :
    copyFromParArray rank wl.nW (copyToParArray rank wl.nW d a f out) = (a, f) := by
  have h : wl.nW 0 + wl.nW 1 ≠ 0 := by
    obtain ⟨r, h1, h2⟩ := buildParDataStruct_returns wl rank m
    rw [hd] at h1; cases h1
    intro h0; simpa using h2.2 h0
  obtain ⟨comp, _, hfree, d', hd', hn, _, _, _, _, _, g0, g1, g2, g3, g4, _⟩ := parameters_enumerate_components wl rank m h
  rw [hd] at hd'; cases hd'
  have hp : ∀ s b, part ((copyFromParArray rank wl.nW (copyToParArray rank wl.nW d a f out)).1 s) b = part (a s) b := by
    intro s b
    by_cases hf : Free rank wl.nW (s, b)
    · obtain ⟨k, hk⟩ := List.getElem?_of_mem ((hfree _).2 hf)
      rw [g1 _ k _ hk, g3 _ _ _ k _ hk]
    · rw [g0 _ s b hf, ha s b hf]
  refine Prod.ext (funext fun s => Complex.ext (hp s true) (hp s false)) ?_
  simp only [g2, g4]

theorem prodAmp_inv (wl : WaveList) (par : ℕ → ℝ) (l : List Slot) (h : l.Nodup) :
    l.foldl (prodAmpStep wl par) (0, []) = ((comps l).length,
      (l.filter fun s => decide (s.1 ≤ s.2.2)).map fun s =>
        ⟨⟨parAt l par (s, true), parAt l par (s, false)⟩, ((comps l).idxOf (s, true), idx l (s, false)),
          "V" ++ toString s.1 ++ "_" ++ wl.name s.2.1 s.2.2⟩) := by
  induction l using List.reverseRecOn with
  | nil => simp [comps]
  | append_singleton l s ih =>
    have hl : l.Nodup := (List.nodup_append.1 h).1
    have hs : s ∉ l := by
      intro hc
      have := (List.nodup_append.1 h).2.2 s hc s (by simp)
      exact this rfl
    have hnot : ∀ b, (s, b) ∉ comps l := fun b hc => hs ((mem_comps _ _).1 hc).1
    have hne : ∀ t ∈ l, t ≠ s := fun t ht he => hs (he ▸ ht)
    rw [List.foldl_append, ih hl]
    simp only [List.foldl_cons, List.foldl_nil, prodAmpStep]
    have hold : (l.filter fun s => decide (s.1 ≤ s.2.2)).map (fun t => (⟨⟨parAt (l ++ [s]) par (t, true), parAt (l ++ [s]) par (t, false)⟩,
        ((comps (l ++ [s])).idxOf (t, true), idx (l ++ [s]) (t, false)), "V" ++ toString t.1 ++ "_" ++ wl.name t.2.1 t.2.2⟩ : ProdAmp)) =
        (l.filter fun s => decide (s.1 ≤ s.2.2)).map (fun t => (⟨⟨parAt l par (t, true), parAt l par (t, false)⟩,
        ((comps l).idxOf (t, true), idx l (t, false)), "V" ++ toString t.1 ++ "_" ++ wl.name t.2.1 t.2.2⟩ : ProdAmp)) := by
      apply List.map_congr_left
      intro t ht
      have ht1 := (List.mem_filter.1 ht).1
      have ht2 : t.1 ≤ t.2.2 := by simpa using (List.mem_filter.1 ht).2
      have hother : ∀ b, parAt (l ++ [s]) par (t, b) = parAt l par (t, b) := by
        intro b
        unfold parAt
        have : (t, b) ∉ slotComps s := by
          rw [mem_slotComps]; simp [hne t ht1]
        rw [comps_snoc]
        by_cases hm : (t, b) ∈ comps l
        · rw [if_pos (List.mem_append_left _ hm), if_pos hm, List.idxOf_append_of_mem hm]
        · rw [if_neg (by simp [hm, this]), if_neg hm]
      have hm : (t, true) ∈ comps l := (mem_comps _ _).2 ⟨ht1, ht2, by simp⟩
      rw [hother, hother, idx_other _ _ _ (hne t ht1), comps_snoc, List.idxOf_append_of_mem hm]
    rw [List.filter_append, List.map_append, hold]
    obtain ⟨r, e, w⟩ := s
    simp only
    by_cases h1 : w < r
    · rw [if_pos h1]
      have hc : slotComps (r, e, w) = [] := by simp [slotComps, h1]
      rw [comps_snoc, hc]
      simp [List.filter_cons, show ¬ r ≤ w by omega]
    · rw [if_neg h1]
      by_cases h2 : w = r
      · rw [if_pos h2]
        have hc : slotComps (r, e, w) = [((r, e, w), true)] := by simp [slotComps, h2]
        rw [comps_snoc, hc]
        have hf : ((r, e, w), false) ∉ comps (l ++ [(r, e, w)]) := by rw [comps_snoc, hc]; simp [hnot]
        simp only [List.filter_cons, show r ≤ w by omega, decide_true, if_true, List.filter_nil, List.map_cons, List.map_nil, parAt, idx,
          comps_snoc, hc]
        simp [List.idxOf_append_of_notMem (hnot _), hnot false]
      · rw [if_neg h2]
        have hc : slotComps (r, e, w) = [((r, e, w), true), ((r, e, w), false)] := by simp [slotComps, h1, h2]
        simp only [List.filter_cons, show r ≤ w by omega, decide_true, if_true, List.filter_nil, List.map_cons, List.map_nil, parAt, idx,
          comps_snoc, hc]
        simp [List.idxOf_append_of_notMem (hnot _)]

/-- the slots that `buildProdAmpArrays` visits without skipping them, in loop order. -/
def ampSlots (rank : ℕ) (nW : ℕ → ℕ) : List Slot := (slots rank nW).filter fun s => decide (s.1 ≤ s.2.2)

theorem buildProdAmpArrays_slots (wl : WaveList) (rank : ℕ) (m : ℝ) (d : ParData) (hd : buildParDataStruct wl rank m = .ok (some d))
    (par : ℕ → ℝ) :
    (ampSlots rank wl.nW).Nodup ∧ (∀ s, s ∈ ampSlots rank wl.nW ↔ Free rank wl.nW (s, true)) ∧
      buildProdAmpArrays wl rank par true =
        (ampSlots rank wl.nW).map (fun s => ⟨(copyFromParArray rank wl.nW par).1 s, (((d.map s).1).getD 0, (d.map s).2),
          "V" ++ toString s.1 ++ "_" ++ wl.name s.2.1 s.2.2⟩)
          ++ [⟨⟨(copyFromParArray rank wl.nW par).2, 0⟩, (d.nmbPars - 1, none), "V_flat"⟩] ∧
      ∀ s ∈ ampSlots rank wl.nW, (d.map s).1.isSome = true := by
  unfold ampSlots
  have h : wl.nW 0 + wl.nW 1 ≠ 0 := by
    obtain ⟨r, h1, h2⟩ := buildParDataStruct_returns wl rank m
    rw [hd] at h1; cases h1
    intro h0; simpa using h2.2 h0
  have hnd := nodup_slots rank wl.nW
  have hmem : ∀ s, s ∈ ((slots rank wl.nW).filter fun s => decide (s.1 ≤ s.2.2)) ↔ Free rank wl.nW (s, true) := by
    intro s
    rw [List.mem_filter, mem_slots]
    unfold Free
    simp
    constructor
    · rintro ⟨⟨a, b, c⟩, d⟩; exact ⟨a, b, c, d⟩
    · rintro ⟨a, b, c, d⟩; exact ⟨⟨a, b, c⟩, d⟩
  have hmap : (∀ s ∈ slots rank wl.nW, d.map s = (idx (slots rank wl.nW) (s, true), idx (slots rank wl.nW) (s, false))) ∧
      d.nmbPars = (comps (slots rank wl.nW)).length + 1 := by
    unfold buildParDataStruct at hd
    rw [if_neg h] at hd
    have hc := countPars_eq rank wl.nW
    have hn : (countPars rank wl.nW).toNat = (comps (slots rank wl.nW)).length + 1 := by omega
    obtain ⟨d', e1, e2, e3, e4, e5⟩ := build_inv wl m ((countPars rank wl.nW).toNat) (slots rank wl.nW) hnd (by omega)
    simp only [e1, Outcome.ok_bind] at hd
    unfold setPar at hd
    rw [if_pos (by rw [e3, hn]; simp)] at hd
    simp only [Outcome.ok_bind] at hd
    cases hd
    exact ⟨e4, by rw [← hn]; exact e2⟩
  obtain ⟨hmap, hnp⟩ := hmap
  have cf := copyFrom_inv par (slots rank wl.nW) hnd
  have hsome : ∀ s ∈ ((slots rank wl.nW).filter fun s => decide (s.1 ≤ s.2.2)),
      (d.map s).1 = some ((comps (slots rank wl.nW)).idxOf (s, true)) := by
    intro s hs
    rw [hmap s (List.mem_filter.1 hs).1]
    simp only [idx]
    rw [if_pos ((mem_comps_slots _ _ _).2 ((hmem s).1 hs))]
  refine ⟨hnd.filter _, hmem, ?_, ?_⟩
  · unfold buildProdAmpArrays copyFromParArray
    simp only [if_true, prodAmp_inv wl par _ hnd, cf.1, hnp]
    congr 1
    apply List.map_congr_left
    intro s hs
    rw [cf.2 s, hsome s hs, hmap s (List.mem_filter.1 hs).1]
    rfl
  · intro s hs
    rw [hsome s hs]; rfl

/-- **C23, amplitudes stored in the fit result.** `buildProdAmpArrays` lists every non-zero slot once, in loop order, with the value that
`copyFromParArray` gives it and with the parameter indices of its two components; its name is `V<rank>_<wave>`. -/
theorem buildProdAmpArrays_agree (wl : WaveList) (rank : ℕ) (m : ℝ) (d : ParData) (hd : buildParDataStruct wl rank m = .ok (some d))
    (par : ℕ → ℝ) :
    ∃ l : List Slot, l.Nodup ∧ (∀ s, s ∈ l ↔ Free rank wl.nW (s, true)) ∧
      buildProdAmpArrays wl rank par true =
        l.map (fun s => ⟨(copyFromParArray rank wl.nW par).1 s, (((d.map s).1).getD 0, (d.map s).2), "V" ++ toString s.1 ++ "_" ++ wl.name s.2.1 s.2.2⟩)
          ++ [⟨⟨(copyFromParArray rank wl.nW par).2, 0⟩, (d.nmbPars - 1, none), "V_flat"⟩] ∧
      ∀ s ∈ l, (d.map s).1.isSome = true :=
  ⟨ampSlots rank wl.nW, buildProdAmpArrays_slots wl rank m d hd par⟩

/-- Different components of a wave list with distinct names have different parameter names, if no wave is called `flat`
and wave names do not clash through the rank prefix: here for equal rank (names are `V<rank>_<wave>_RE/IM`). -/
theorem parName_injective (p q : FitPar) (hr : p.rank = q.rank) (hp : p.waveName ≠ "flat") (hq : q.waveName ≠ "flat")
    (h : p.parName = q.parName) : p.waveName = q.waveName ∧ p.realPart = q.realPart := by
  unfold FitPar.parName at h
  rw [if_pos hp, if_pos hq, hr] at h
  have h' := congrArg String.toList h
  simp only [String.toList_append] at h'
  have key : ∀ (a b : Bool), (p.waveName.toList ++ (if a then "_RE" else "_IM").toList =
      q.waveName.toList ++ (if b then "_RE" else "_IM").toList) → p.waveName.toList = q.waveName.toList ∧ a = b := by
    intro a b hh
    have hl : ((if a then "_RE" else "_IM" : String).toList).length = ((if b then "_RE" else "_IM" : String).toList).length := by
      cases a <;> cases b <;> rfl
    obtain ⟨h1, h2⟩ := List.append_inj' hh hl
    refine ⟨h1, ?_⟩
    cases a <;> cases b <;> first | rfl | (exact absurd h2 (by decide))
  simp only [List.append_assoc] at h'
  have h'' := List.append_cancel_left (List.append_cancel_left (List.append_cancel_left h'))
  obtain ⟨h1, h2⟩ := key _ _ h''
  exact ⟨String.toList_inj.1 h1, h2⟩

/-- Non-vacuity: rank 2, two waves of negative and three of positive reflectivity: 3 + 5 + 1 + 3 + 1 = 13 parameters. -/
example : ∃ d, buildParDataStruct ⟨fun e => if e = 0 then 2 else 3, fun _ _ => "w", fun _ _ => 0⟩ 2 1 = .ok (some d) ∧ d.nmbPars = 13 := by
  obtain ⟨comp, _, _, d, hd, hn, _⟩ := parameters_enumerate_components ⟨fun e => if e = 0 then 2 else 3, fun _ _ => "w", fun _ _ => 0⟩ 2 1
    (by norm_num)
  refine ⟨d, hd, ?_⟩
  unfold buildParDataStruct at hd
  rw [if_neg (by norm_num)] at hd
  have hc := countPars_eq 2 (fun e => if e = 0 then 2 else 3)
  obtain ⟨d', e1, e2, e3, e4, e5⟩ := build_inv ⟨fun e => if e = 0 then 2 else 3, fun _ _ => "w", fun _ _ => 0⟩ 1
    ((countPars 2 (fun e => if e = 0 then 2 else 3)).toNat) (slots 2 (fun e => if e = 0 then 2 else 3)) (nodup_slots _ _) (by omega)
  simp only [e1, Outcome.ok_bind] at hd
  unfold setPar at hd
  split at hd
  · simp only [Outcome.ok_bind] at hd
    cases hd
    simp only [e2]
    decide
  · cases hd

end Rpwa.Lik
