import Verif.Spec.EventWeights
import Verif.Props.LikSetup
import Verif.Props.SpinDensity
import Verif.Props.FitRefill
import Verif.Props.BestResult
import Verif.Lemmas.Covariance
import Verif.Lemmas.FitNames
/-! # C65: weights of Monte Carlo events (weightEvents) -/
namespace Rpwa.Wgt

open Rpwa.Fit Rpwa.Integral Finset

/-! ### choice of the fit result -/

/-- invariant of the search. -/
private theorem best_inv {α : Type} (center : ℝ) (entries : List (ℝ × ℝ × α)) (h : entries ≠ []) :
    ∃ e, entries[(entries.zipIdx.foldl (fun b e => bestStep center b e.2 e.1.1 e.1.2.1) ⟨0, 0, 0⟩).index]? = some e ∧
      (entries.zipIdx.foldl (fun b e => bestStep center b e.2 e.1.1 e.1.2.1) ⟨0, 0, 0⟩).mass = e.1 ∧
      (entries.zipIdx.foldl (fun b e => bestStep center b e.2 e.1.1 e.1.2.1) ⟨0, 0, 0⟩).logL = e.2.1 ∧
      IsBestFit center entries (entries.zipIdx.foldl (fun b e => bestStep center b e.2 e.1.1 e.1.2.1) ⟨0, 0, 0⟩).index := by
  induction entries using List.reverseRecOn with
  | nil => exact absurd rfl h
  | append_singleton es x ih =>
    rw [List.zipIdx_append, List.foldl_append]
    simp only [List.zipIdx_cons, List.zipIdx_nil, List.foldl_cons, List.foldl_nil, Nat.zero_add]
    have hlast : (es ++ [x])[es.length]? = some x := by simp
    have hcase : ∀ (m : ℕ) (e' : ℝ × ℝ × α), (es ++ [x])[m]? = some e' → (m < es.length ∧ es[m]? = some e') ∨ (m = es.length ∧ e' = x) := by
      intro m e' hm
      by_cases hlt : m < es.length
      · rw [List.getElem?_append_left hlt] at hm; exact .inl ⟨hlt, hm⟩
      · rw [List.getElem?_append_right (by omega)] at hm
        obtain ⟨h1, h2⟩ := List.getElem?_eq_some_iff.1 hm
        simp at h1 h2
        exact .inr ⟨by omega, h2.symm⟩
    by_cases hes : es = []
    · subst hes
      refine ⟨x, ?_, ?_⟩
      · simp [bestStep]
      · refine ⟨by simp [bestStep], by simp [bestStep], x, by simp [bestStep], ?_⟩
        intro m e' hm
        rcases hcase m e' hm with ⟨h1, _⟩ | ⟨h1, rfl⟩
        · simp at h1
        · exact ⟨le_rfl, fun _ => ⟨le_rfl, fun h2 => by simp [h1, bestStep] at h2⟩⟩
    · obtain ⟨e, h1, h2, h3, e', h4, h5⟩ := ih hes
      generalize es.zipIdx.foldl (fun b e => bestStep center b e.2 e.1.1 e.1.2.1) ⟨0, 0, 0⟩ = b at *
      obtain rfl : e = e' := Option.some.inj (h1.symm.trans h4)
      have hlen : es.length ≠ 0 := by simpa using hes
      have hb : b.index < es.length := (List.getElem?_eq_some_iff.1 h1).1
      have hold : (es ++ [x])[b.index]? = some e := by rw [List.getElem?_append_left hb]; exact h1
      have hnew : ∀ (hcl : |center - x.1| < |center - b.mass| ∨ (|center - x.1| = |center - b.mass| ∧ x.2.1 < b.logL)),
          ∃ e, (es ++ [x])[es.length]? = some e ∧ x.1 = e.1 ∧ x.2.1 = e.2.1 ∧ IsBestFit center (es ++ [x]) es.length := by
        intro hcl
        refine ⟨x, hlast, rfl, rfl, x, hlast, ?_⟩
        intro m e' hm
        rcases hcase m e' hm with ⟨k1, k2⟩ | ⟨k1, rfl⟩
        · obtain ⟨k3, k4⟩ := h5 m e' k2
          rw [h2, h3] at hcl
          rcases hcl with hcl | ⟨hcl, hl⟩
          · exact ⟨by linarith, fun he => by linarith⟩
          · refine ⟨by linarith, fun he => ?_⟩
            have := (k4 (by linarith)).1
            exact ⟨by linarith, fun _ => by linarith⟩
        · exact ⟨le_rfl, fun _ => ⟨le_rfl, fun h => by omega⟩⟩
      have hkeep : ∀ (hcl : |center - b.mass| < |center - x.1| ∨ (|center - x.1| = |center - b.mass| ∧ b.logL ≤ x.2.1)),
          ∃ e, (es ++ [x])[b.index]? = some e ∧ b.mass = e.1 ∧ b.logL = e.2.1 ∧ IsBestFit center (es ++ [x]) b.index := by
        intro hcl
        refine ⟨e, hold, h2, h3, e, hold, ?_⟩
        intro m e' hm
        rcases hcase m e' hm with ⟨k1, k2⟩ | ⟨k1, rfl⟩
        · exact h5 m e' k2
        · rw [h2, h3] at hcl
          rcases hcl with hcl | ⟨hcl, hl⟩
          · exact ⟨hcl.le, fun he => absurd he (ne_of_lt hcl)⟩
          · exact ⟨hcl.ge, fun _ => ⟨hl, fun h => by omega⟩⟩
      unfold bestStep
      by_cases c1 : |center - x.1| < |center - b.mass|
      · rw [if_pos (Or.inr c1)]; exact hnew (Or.inl c1)
      · rw [if_neg (by simp [hlen, c1])]
        by_cases c2 : |center - x.1| = |center - b.mass|
        · rw [if_pos c2]
          by_cases c3 : x.2.1 < b.logL
          · rw [if_pos c3]; exact hnew (Or.inr ⟨c2, c3⟩)
          · rw [if_neg c3]; exact hkeep (Or.inr ⟨c2, not_lt.1 c3⟩)
        · rw [if_neg c2]; exact hkeep (Or.inl (lt_of_le_of_ne (not_lt.1 c1) (Ne.symm c2)))

/-- **C65, choice of the fit.** The fit result used is the one closest to the requested mass with the best likelihood among those; the program stops
exactly if no fit result lies in the bin. -/
theorem selectFit_spec {α : Type} (center width : ℝ) (entries : List (ℝ × ℝ × α)) (h : entries ≠ []) :
    ∃ n e, IsBestFit center entries n ∧ entries[n]? = some e ∧
      ((|center - e.1| ≤ width / 2 ∧ selectFit center width entries = .ok e.2.2) ∨
       (width / 2 < |center - e.1| ∧ selectFit center width entries = .terminate)) := by
  obtain ⟨e, h1, h2, _, h4⟩ := best_inv center entries h
  refine ⟨_, e, h4, h1, ?_⟩
  unfold selectFit
  simp only
  rw [h1, h2]
  by_cases hc : e.1 < center - width / 2 ∨ e.1 > center + width / 2
  · right
    rw [if_pos hc]
    refine ⟨?_, rfl⟩
    rcases hc with hc | hc
    · exact lt_abs.2 (Or.inl (by linarith))
    · exact lt_abs.2 (Or.inr (by linarith))
  · left
    rw [if_neg hc]
    push Not at hc
    exact ⟨abs_le.2 ⟨by linarith, by linarith⟩, rfl⟩

/-- ... in particular the program stops if no entry is within the bin. -/
theorem selectFit_none {α : Type} (center width : ℝ) (entries : List (ℝ × ℝ × α)) (h : entries ≠ []) :
    selectFit center width entries = .terminate ↔ ∀ e ∈ entries, width / 2 < |center - e.1| := by
  obtain ⟨n, e, ⟨e', h1, h2⟩, h3, h4⟩ := selectFit_spec center width entries h
  obtain rfl : e = e' := Option.some.inj (h3.symm.trans h1)
  constructor
  · intro ht x hx
    obtain ⟨m, hm⟩ := List.getElem?_of_mem hx
    have := (h2 m x hm).1
    rcases h4 with ⟨_, h5⟩ | ⟨h5, _⟩
    · rw [h5] at ht; cases ht
    · linarith
  · intro hall
    rcases h4 with ⟨h5, _⟩ | ⟨_, h5⟩
    · have := hall e (List.mem_of_getElem? h1); linarith
    · exact h5

/-- an empty tree is not noticed when zero lies in the mass bin. -/
theorem selectFit_empty (α : Type) (center width : ℝ) (h : |center| ≤ width / 2) : selectFit center width ([] : List (ℝ × ℝ × α)) = .ub := by
  unfold selectFit
  obtain ⟨h1, h2⟩ := abs_le.1 h
  have hn : ¬ ((0 : ℝ) < center - width / 2 ∨ (0 : ℝ) > center + width / 2) := by
    push Not; exact ⟨by linarith, by linarith⟩
  exact (if_neg hn).trans rfl

/-! ### reading the fit result -/

section
variable {r : FitResult} {labels : List Label}

/-- position of the wave of a label. -/
def waveIdx (r : FitResult) (l : Label) : ℕ := r.waveNames.idxOf l.wave.text

theorem waveIdx_spec (hL : Lists r labels) (l : Label) (hl : l ∈ labels) : r.waveNames[waveIdx r l]? = some l.wave.text := by
  have hm : l.wave.text ∈ r.waveNames := (hL.hwaves.2 _).2 ⟨l, hl, rfl⟩
  have hlt := List.idxOf_lt_length_iff.2 hm
  unfold waveIdx
  rw [List.getElem?_eq_getElem hlt]
  exact congrArg some (List.getElem_idxOf hlt)

theorem wave_eq_of_idx (hL : Lists r labels) (l l' : Label) (hl : l ∈ labels) (hl' : l' ∈ labels) (h : waveIdx r l = waveIdx r l') : l.wave = l'.wave := by
  have h1 := waveIdx_spec hL l hl
  have h2 := waveIdx_spec hL l' hl'
  rw [h] at h1
  exact wave_text_inj (hL.hgood l hl) (hL.hgood l' hl') (Option.some.inj (h1.symm.trans h2))

/-- what is read for the amplitude with a label. -/
def infoOf (r : FitResult) (l : Label) : ProdInfo := ⟨waveIdx r l, l.wave.refl, l.code⟩

theorem prodInfos_eq (hL : Lists r labels) : prodInfos r = .ok (labels.map (infoOf r)) := by
  unfold prodInfos
  rw [hL.hcount]
  have key : ∀ i (hi : i < labels.length), prodInfo r i = .ok (infoOf r labels[i]) := by
    intro i hi
    have hname : r.prodAmpNames[i]? = some labels[i].text := by rw [hL.hnames, List.getElem?_map, List.getElem?_eq_getElem hi]; rfl
    have hm : labels[i] ∈ labels := List.getElem_mem hi
    unfold prodInfo FitResult.prodAmpName
    rw [hname]
    simp only [Outcome.ok_bind]
    rw [waveNameOf_text, reflectivity_wave _ (hL.hgood _ hm)]
    simp only [Outcome.ok_bind]
    have hlt := List.idxOf_lt_length_iff.2 ((hL.hwaves.2 _).2 ⟨labels[i], hm, rfl⟩)
    unfold FitResult.waveIndex
    simp only
    rw [if_pos hlt]
    simp only
    unfold infoOf waveIdx FitResult.rankOfProdAmp
    rw [List.getD_eq_getElem?_getD, hname, Option.getD_some, rankOfName_text]
  obtain ⟨bs, hbs, hP⟩ := Rpwa.Best.mapM_ok_of (prodInfo r) (fun i b => ∃ hi : i < labels.length, b = infoOf r labels[i]) (List.range labels.length)
    (fun i hi => ⟨_, key i (List.mem_range.1 hi), List.mem_range.1 hi, rfl⟩)
  rw [hbs]
  refine congrArg Outcome.ok ?_
  have hlen := hP.length_eq
  simp only [List.length_range] at hlen
  refine List.ext_getElem (by simp [hlen]) fun i h1 h2 => ?_
  obtain ⟨_, hb⟩ := (List.forall₂_iff_get.1 hP).2 i (by simpa using hlen ▸ h1) h1
  simp only [List.get_eq_getElem, List.getElem_range] at hb
  rw [hb, List.getElem_map]

theorem set_fold {β : Type} (l : List (ℕ × β)) (target init : List β) (hlen : init.length = target.length) (h : ∀ e ∈ l, target[e.1]? = some e.2)
    (k : ℕ) (hk : k < target.length) :
    (l.foldl (fun ns e => ns.set e.1 e.2) init)[k]? = if k ∈ l.map Prod.fst then target[k]? else init[k]? := by
  induction l generalizing init with
  | nil => simp
  | cons e l ih =>
    rw [List.foldl_cons, ih (init.set e.1 e.2) (by simp [hlen]) fun x hx => h x (List.mem_cons_of_mem _ hx)]
    have he := h e List.mem_cons_self
    by_cases h1 : k ∈ l.map Prod.fst
    · rw [if_pos h1, if_pos (by simp at h1 ⊢; exact Or.inr h1)]
    · rw [if_neg h1]
      by_cases h2 : k = e.1
      · subst h2
        rw [if_pos (by simp), List.getElem?_set_self (by omega), he]
      · rw [if_neg (by simp at h1 ⊢; exact ⟨h2, h1⟩), List.getElem?_set_ne (Ne.symm h2)]

theorem waveNamesOf_eq (hL : Lists r labels) : waveNamesOf r (labels.map (infoOf r)) = r.waveNames := by
  have e0 : waveNamesOf r (labels.map (infoOf r)) =
      (labels.map fun l => (waveIdx r l, l.wave.text)).foldl (fun ns e => ns.set e.1 e.2) (List.replicate r.waveNames.length []) := by
    unfold waveNamesOf
    have : (labels.map (infoOf r)).zipIdx.map (fun e => (e.1.wave, waveNameOf (r.prodAmpNames.getD e.2 []))) = labels.map fun l => (waveIdx r l, l.wave.text) := by
      refine List.ext_getElem (by simp) fun i h1 h2 => ?_
      simp only [List.getElem_map, List.getElem_zipIdx, Nat.zero_add]
      have hi : i < labels.length := by simpa using h2
      have hname : r.prodAmpNames[i]? = some labels[i].text := by rw [hL.hnames, List.getElem?_map, List.getElem?_eq_getElem hi]; rfl
      rw [List.getD_eq_getElem?_getD, hname, Option.getD_some, waveNameOf_text]
      rfl
    rw [← this, List.foldl_map]
  have hlenf : ∀ (l : List (ℕ × Name)) (init : List Name), (l.foldl (fun ns e => ns.set e.1 e.2) init).length = init.length := by
    intro l
    induction l with
    | nil => intro init; rfl
    | cons e l ih => intro init; rw [List.foldl_cons, ih]; simp
  rw [e0]
  refine List.ext_getElem? fun k => ?_
  by_cases hk : k < r.waveNames.length
  · rw [set_fold _ r.waveNames _ (by simp) ?_ k hk, if_pos]
    · obtain ⟨l, hl, he⟩ := (hL.hwaves.2 _).1 (List.getElem_mem hk)
      have h1 := waveIdx_spec hL l hl
      have h2 : waveIdx r l = k := by
        have h3 : r.waveNames[k]? = some l.wave.text := by rw [List.getElem?_eq_getElem hk, he]
        exact (List.getElem?_inj (List.getElem?_eq_some_iff.1 h1).1 hL.hwaves.1).1 (h1.trans h3.symm)
      rw [List.mem_map]
      exact ⟨(waveIdx r l, l.wave.text), List.mem_map.2 ⟨l, hl, rfl⟩, h2⟩
    · intro e he
      obtain ⟨l, hl, rfl⟩ := List.mem_map.1 he
      exact waveIdx_spec hL l hl
  · rw [List.getElem?_eq_none (by rw [hlenf]; simp; omega), List.getElem?_eq_none (by omega)]

/-! ### opening the amplitude files -/

/-- the tree of a wave. -/
def treeOf (files : Name → Option AmpFile) (n : Name) : Option AmpFile := if n = "flat".toList then none else files n

theorem openAmpFiles_eq (files : Name → Option AmpFile) (N : ℕ) (hN : 0 < N) (names : List Name)
    (h : ∀ n ∈ names, n ≠ "flat".toList → ∃ t, files n = some t ∧ t.length = N) :
    openAmpFiles files names = (if ∃ n ∈ names, n ≠ "flat".toList then N else 0, names.map (treeOf files)) := by
  induction names using List.reverseRecOn with
  | nil => simp [openAmpFiles]
  | append_singleton ns n ih =>
    have ih' := ih fun x hx => h x (List.mem_append_left _ hx)
    unfold openAmpFiles at ih' ⊢
    rw [List.foldl_append, ih', List.foldl_cons, List.foldl_nil, List.map_append]
    unfold openStep
    by_cases hf : n = "flat".toList
    · rw [if_pos hf]
      refine Prod.ext ?_ ?_
      · refine if_congr ?_ rfl rfl
        constructor
        · rintro ⟨x, hx, hx'⟩; exact ⟨x, List.mem_append_left _ hx, hx'⟩
        · rintro ⟨x, hx, hx'⟩
          rcases List.mem_append.1 hx with hx | hx
          · exact ⟨x, hx, hx'⟩
          · rw [List.mem_singleton.1 hx] at hx'; exact absurd hf hx'
      · simp [treeOf, hf]
    · rw [if_neg hf]
      obtain ⟨t, ht, hlen⟩ := h n (by simp) hf
      rw [ht]
      simp only
      have hex : ∃ x ∈ ns ++ [n], x ≠ "flat".toList := ⟨n, by simp, hf⟩
      rw [if_neg (by omega), if_pos hex]
      have htree : treeOf files n = some t := by unfold treeOf; rw [if_neg hf, ht]
      by_cases hex' : ∃ x ∈ ns, x ≠ "flat".toList
      · rw [if_pos hex', if_neg (by omega), if_neg (by omega)]
        simp [htree]
      · rw [if_neg hex', if_pos rfl, hlen]
        simp [htree]

/-- **C65, amplitude files.** If the program goes on after opening the files, every wave other than the flat wave has its own tree, and all trees have the
same, positive number of entries. -/
theorem openAmpFiles_spec (files : Name → Option AmpFile) (names : List Name) (h : names.length = (openAmpFiles files names).2.length) :
    (openAmpFiles files names).2 = names.map (treeOf files) ∧
    ∀ n ∈ names, n ≠ "flat".toList → ∃ t, files n = some t ∧ t.length = (openAmpFiles files names).1 ∧ 0 < t.length := by
  have key : ∀ names : List Name, (openAmpFiles files names).2.length ≤ names.length ∧
      ((openAmpFiles files names).2.length = names.length → (openAmpFiles files names).2 = names.map (treeOf files) ∧
        ∀ n ∈ names, n ≠ "flat".toList → ∃ t, files n = some t ∧ t.length = (openAmpFiles files names).1 ∧ 0 < t.length) := by
    intro names
    induction names using List.reverseRecOn with
    | nil => simp [openAmpFiles]
    | append_singleton ns n ih =>
      unfold openAmpFiles at ih ⊢
      rw [List.foldl_append, List.foldl_cons, List.foldl_nil]
      generalize ns.foldl (openStep files) (0, []) = st at *
      obtain ⟨h1, h2⟩ := ih
      unfold openStep
      by_cases hf : n = "flat".toList
      · rw [if_pos hf]
        refine ⟨by simp [h1], fun hl => ?_⟩
        obtain ⟨h3, h4⟩ := h2 (by simpa using hl)
        refine ⟨by simp [h3, treeOf, hf], fun x hx hx' => ?_⟩
        rcases List.mem_append.1 hx with hx | hx
        · exact h4 x hx hx'
        · rw [List.mem_singleton.1 hx] at hx'; exact absurd hf hx'
      · rw [if_neg hf]
        have hskip : st.2.length ≤ (ns ++ [n]).length ∧ (st.2.length = (ns ++ [n]).length → st.2 = (ns ++ [n]).map (treeOf files) ∧
            ∀ x ∈ ns ++ [n], x ≠ "flat".toList → ∃ t, files x = some t ∧ t.length = st.1 ∧ 0 < t.length) := by
          refine ⟨by simp; omega, fun hl => ?_⟩
          simp at hl; omega
        cases ht : files n with
        | none => exact hskip
        | some t =>
          simp only
          by_cases ht0 : t.length = 0
          · rw [if_pos ht0]; exact hskip
          rw [if_neg ht0]
          have hadd : ∀ m : ℕ, m = t.length → (∀ x ∈ ns, x ≠ "flat".toList → st.2.length = ns.length → st.1 = t.length) →
              (st.2 ++ [some t]).length ≤ (ns ++ [n]).length ∧ ((st.2 ++ [some t]).length = (ns ++ [n]).length → st.2 ++ [some t] = (ns ++ [n]).map (treeOf files) ∧
              ∀ x ∈ ns ++ [n], x ≠ "flat".toList → ∃ t, files x = some t ∧ t.length = m ∧ 0 < t.length) := by
            intro m hm hst
            refine ⟨by simpa using h1, fun hl => ?_⟩
            have hl' : st.2.length = ns.length := by simpa using hl
            obtain ⟨h3, h4⟩ := h2 hl'
            refine ⟨by rw [h3, List.map_append, List.map_singleton, treeOf, if_neg hf, ht], fun x hx hx' => ?_⟩
            rcases List.mem_append.1 hx with hx | hx
            · obtain ⟨t', k1, k2, k3⟩ := h4 x hx hx'
              exact ⟨t', k1, by rw [k2, hm, hst x hx hx' hl'], k3⟩
            · rw [List.mem_singleton.1 hx]; exact ⟨t, ht, hm.symm, by omega⟩
          by_cases hs0 : st.1 = 0
          · rw [if_pos hs0]
            refine hadd _ rfl fun x hx hx' hl' => ?_
            obtain ⟨t', _, k2, k3⟩ := (h2 hl').2 x hx hx'
            omega
          · rw [if_neg hs0]
            by_cases hne : t.length ≠ st.1
            · rw [if_pos hne]; exact hskip
            · rw [if_neg hne]
              exact hadd _ (by omega) fun _ _ _ _ => by omega
  exact (key names).2 h.symm

end

end Rpwa.Wgt
