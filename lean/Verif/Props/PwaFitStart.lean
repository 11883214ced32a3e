import Verif.Props.PwaFit
import Verif.Lemmas.FitNames
/-! # C61: start values from an earlier fit -/
namespace Rpwa.PwaFit

open Rpwa.Lik Rpwa.Fit

theorem replaceAll_suffix (c : Char) (q s : Name) (hc : c ∉ q) (hs : ¬ (c :: q) <:+: s) : replaceAll (c :: q) [] (s ++ c :: q) = s := by
  induction s with
  | nil =>
    rw [List.nil_append, replaceAll]
    have : (c :: q).isPrefixOf (c :: q) = true := List.isPrefixOf_iff_prefix.2 List.prefix_rfl
    rw [if_pos this]
    simp [replaceAll]
  | cons x s ih =>
    have hs' : ¬ (c :: q) <:+: s := fun h => hs (h.trans (List.suffix_cons x s).isInfix)
    rw [List.cons_append, replaceAll, if_neg, ih hs']
    rw [List.isPrefixOf_iff_prefix]
    intro hp
    rw [← List.cons_append] at hp
    rcases List.prefix_or_prefix_of_prefix hp (List.prefix_append (x :: s) (c :: q)) with h | h
    · exact hs h.isInfix
    · -- `c :: q` starts before and ends in the appended text
      obtain ⟨u, hu⟩ := h
      rw [← hu] at hp
      have hp2 : u <+: c :: q := by
        have := (List.prefix_append_right_inj (x :: s)).1 hp
        rw [hu] at this
        exact this
      cases u with
      | nil =>
        rw [List.append_nil] at hu
        exact hs (hu ▸ List.infix_rfl)
      | cons y u =>
        have hy : y = c := by
          obtain ⟨w, hw⟩ := hp2
          rw [List.cons_append, List.cons.injEq] at hw
          exact hw.1
        rw [List.cons_append, List.cons.injEq] at hu
        apply hc
        rw [← hu.2, hy]
        simp

theorem infix_of_append (p : Name) (c : Char) (s t : Name) (hc : c ∉ t) (h : (p ++ [c]) <:+: s ++ t) : (p ++ [c]) <:+: s := by
  obtain ⟨u, v, h⟩ := h
  rcases List.append_eq_append_iff.1 h with ⟨w, h1, h2⟩ | ⟨w, h1, h2⟩
  · exact ⟨u, w, h1.symm⟩
  · rcases List.eq_nil_or_concat w with rfl | ⟨w', y, rfl⟩
    · exact ⟨u, [], by rw [List.append_nil] at h1; rw [List.append_nil]; exact h1⟩
    · exfalso
      apply hc
      have : y = c := by
        rw [List.concat_eq_append, ← List.append_assoc, ← List.append_assoc] at h1
        exact ((List.append_inj' h1 rfl).2 |> List.cons.inj).1.symm
      rw [h2, this]
      simp

/-- **C61, reading back.** The parameters of a stored amplitude are found in the result of an earlier fit under the names of the parameters
of the new fit, if the name of the amplitude contains none of `RE`, `_IM` and `flat`. -/
theorem fitParameter_stored (r : FitResult) (i : ℕ) (n : Name) (hi : r.prodAmpNames[i]? = some n) (hnd : r.prodAmpNames.Nodup)
    (hRE : ¬ "RE".toList <:+: n) (hIM : ¬ "_IM".toList <:+: n) (hflat : ¬ "flat".toList <:+: n) :
    fitParameter r (n ++ "_RE".toList) = (r.prodAmps i).re ∧ fitParameter r (n ++ "_IM".toList) = (r.prodAmps i).im := by
  have hidx : r.prodAmpIndex n = some i := by
    obtain ⟨hlt, e⟩ := List.getElem?_eq_some_iff.1 hi
    unfold FitResult.prodAmpIndex
    have h1 : r.prodAmpNames.idxOf n = i := by rw [← e]; exact hnd.idxOf_getElem i hlt
    simp only [h1, if_pos hlt]
  constructor
  · have h1 : hasSub "RE".toList (n ++ "_RE".toList) = true := by
      rw [hasSub_iff]
      exact ⟨n ++ ['_'], [], by simp⟩
    have h2 : replaceAll "_RE".toList [] (n ++ "_RE".toList) = n :=
      replaceAll_suffix '_' "RE".toList n (by decide) fun h => hRE (((show "RE".toList <:+: '_' :: "RE".toList from ⟨['_'], [], rfl⟩)).trans h)
    unfold fitParameter
    simp only [h1, Bool.true_or, if_true, h2, hidx]
  · have h1 : hasSub "RE".toList (n ++ "_IM".toList) = false := by
      rw [← Bool.not_eq_true, hasSub_iff]
      intro h
      exact hRE (infix_of_append ['R'] 'E' n "_IM".toList (by decide) h)
    have h2 : hasSub "flat".toList (n ++ "_IM".toList) = false := by
      rw [← Bool.not_eq_true, hasSub_iff]
      intro h
      exact hflat (infix_of_append ['f', 'l', 'a'] 't' n "_IM".toList (by decide) h)
    have h3 : replaceAll "_IM".toList [] (n ++ "_IM".toList) = n := replaceAll_suffix '_' "IM".toList n (by decide) hIM
    unfold fitParameter
    simp only [h1, h2, Bool.or_false, Bool.false_eq_true, if_false, h3, hidx]

/-- the flat wave. -/
theorem fitParameter_flat (r : FitResult) (i : ℕ) (hi : r.prodAmpNames[i]? = some "V_flat".toList) (hnd : r.prodAmpNames.Nodup) :
    fitParameter r "V_flat_RE".toList = (r.prodAmps i).re := by
  have hidx : r.prodAmpIndex "V_flat".toList = some i := by
    obtain ⟨hlt, e⟩ := List.getElem?_eq_some_iff.1 hi
    unfold FitResult.prodAmpIndex
    have h1 : r.prodAmpNames.idxOf "V_flat".toList = i := by rw [← e]; exact hnd.idxOf_getElem i hlt
    simp only [h1, if_pos hlt]
  have h1 : hasSub "RE".toList "V_flat_RE".toList = true := by decide
  have h2 : replaceAll "_RE".toList [] "V_flat_RE".toList = "V_flat".toList :=
    replaceAll_suffix '_' "RE".toList "V_flat".toList (by decide) (by rw [← hasSub_iff]; decide)
  unfold fitParameter
  simp only [h1, Bool.true_or, if_true, h2, hidx]

theorem replaceAll_none (c : Char) (q s : Name) (hs : ¬ (c :: q) <:+: s) : replaceAll (c :: q) [] s = s := by
  induction s with
  | nil => rw [replaceAll]
  | cons x s ih =>
    rw [replaceAll, if_neg, ih fun h => hs (h.trans (List.suffix_cons x s).isInfix)]
    rw [List.isPrefixOf_iff_prefix]
    exact fun h => hs h.isInfix

/-- Finding: the imaginary part of an amplitude whose wave name contains `flat` or `RE` (but not `_RE`) is never found: the name of the
parameter counts as that of a real part and keeps its `_IM`. -/
theorem fitParameter_lost (r : FitResult) (n : Name) (h : "flat".toList <:+: n ∨ "RE".toList <:+: n) (hRE : ¬ "_RE".toList <:+: n)
    (hnames : n ++ "_IM".toList ∉ r.prodAmpNames) : fitParameter r (n ++ "_IM".toList) = 0 := by
  have h1 : (hasSub "RE".toList (n ++ "_IM".toList) || hasSub "flat".toList (n ++ "_IM".toList)) = true := by
    rw [Bool.or_eq_true, hasSub_iff, hasSub_iff]
    rcases h with h | h
    · exact Or.inr (h.trans ⟨[], "_IM".toList, rfl⟩)
    · exact Or.inl (h.trans ⟨[], "_IM".toList, rfl⟩)
  have h2 : replaceAll "_RE".toList [] (n ++ "_IM".toList) = n ++ "_IM".toList := by
    apply replaceAll_none '_' "RE".toList
    intro hc
    exact hRE (infix_of_append ['_', 'R'] 'E' n "_IM".toList (by decide) hc)
  have h3 : r.prodAmpIndex (n ++ "_IM".toList) = none := by
    unfold FitResult.prodAmpIndex
    simp only
    rw [if_neg]
    rw [not_lt]
    exact (List.idxOf_eq_length hnames).ge
  unfold fitParameter
  simp only [h1, if_true, h2, h3]

/-- Therefore a fit that continues from such a result starts at a random imaginary part, for every seed. -/
theorem start_lost (rnd : ℕ → ℝ) (k : ℕ) (r : FitResult) (params : List FitPar) (i : ℕ) (p : FitPar) (hp : params[i]? = some p)
    (hfree : p.fixed = false) (n : Name) (hn : p.parName.toList = n ++ "_IM".toList)
    (h : "flat".toList <:+: n ∨ "RE".toList <:+: n) (hRE : ¬ "_RE".toList <:+: n) (hnames : n ++ "_IM".toList ∉ r.prodAmpNames) :
    ∃ v j, (startValues rnd k (some r) params)[i]? = some v ∧ v.value = randomStart rnd (Real.sqrt k) j := by
  obtain ⟨v, hv, _, _, _, h4⟩ := (startValues_spec rnd k (some r) params).2 i p hp
  have h0 := fitParameter_lost r n h hRE hnames
  rw [← hn] at h0
  rcases h4 hfree with ⟨r', e1, e2, _⟩ | ⟨_, j, e⟩
  · cases e1; exact absurd h0 e2
  · exact ⟨v, j, hv, e⟩

/-- an example of such a name. -/
theorem start_lost_example : ∃ p : FitPar, ∃ n : Name, p.parName.toList = n ++ "_IM".toList ∧ "flat".toList <:+: n ∧ ¬ "_RE".toList <:+: n := by
  refine ⟨⟨"[1,0-,0+,1+,0+]=[flatRange[0,0]pi-]", 0, 0, false, false⟩, "V0_[1,0-,0+,1+,0+]=[flatRange[0,0]pi-]".toList, ?_, ?_, ?_⟩
  · decide
  · rw [← hasSub_iff]; decide
  · rw [← hasSub_iff]; decide

/-! ### the entry of the tree -/

/-- what the loop over the entries knows. -/
theorem bestStep_inv (center : ℝ) (l : List FitResult) :
    ((∀ e ∈ l, |center| < |center - massBinCenter e|) ∧ l.zipIdx.foldl (bestStep center) (0, 0) = (0, 0)) ∨
    (∃ (i : ℕ) (e : FitResult), l.zipIdx.foldl (bestStep center) (0, 0) = (i, massBinCenter e) ∧ l[i]? = some e ∧
      |center - massBinCenter e| ≤ |center| ∧ ∀ e' ∈ l, |center - massBinCenter e| ≤ |center - massBinCenter e'|) := by
  induction l using List.reverseRecOn with
  | nil => left; simp
  | append_singleton l x ih =>
    rw [List.zipIdx_append, List.foldl_append]
    simp only [List.zipIdx_cons, List.zipIdx_nil, List.foldl_cons, List.foldl_nil, Nat.zero_add]
    rcases ih with ⟨h1, h2⟩ | ⟨i, e, h1, h2, h3, h4⟩
    · rw [h2]
      unfold bestStep
      simp only [sub_zero]
      split_ifs with hx
      · right
        refine ⟨l.length, x, rfl, by simp, hx, ?_⟩
        intro e' he'
        rcases List.mem_append.1 he' with he | he
        · exact le_trans hx (h1 e' he).le
        · rw [List.mem_singleton.1 he]
      · left
        refine ⟨?_, rfl⟩
        intro e' he'
        rcases List.mem_append.1 he' with he | he
        · exact h1 e' he
        · rw [List.mem_singleton.1 he]; exact not_le.1 hx
    · rw [h1]
      unfold bestStep
      simp only
      right
      split_ifs with hx
      · refine ⟨l.length, x, rfl, by simp, le_trans hx h3, ?_⟩
        intro e' he'
        rcases List.mem_append.1 he' with he | he
        · exact le_trans hx (h4 e' he)
        · rw [List.mem_singleton.1 he]
      · refine ⟨i, e, rfl, ?_, h3, ?_⟩
        · rw [List.getElem?_append_left (List.getElem?_eq_some_iff.1 h2).1]; exact h2
        · intro e' he'
          rcases List.mem_append.1 he' with he | he
          · exact h4 e' he
          · rw [List.mem_singleton.1 he]; exact (not_le.1 hx).le

/-- **C61, closest mass bin.** If some entry of the file is at most as far from the centre of the bin as mass 0 is, start values are taken
from an entry with the closest mass. -/
theorem chooseStart_closest_partial (center : ℝ) (l : List FitResult) (h : ∃ e ∈ l, |center - massBinCenter e| ≤ |center|) :
    chooseStart center l ∈ l ∧ ∀ e ∈ l, |center - massBinCenter (chooseStart center l)| ≤ |center - massBinCenter e| := by
  rcases bestStep_inv center l with ⟨h1, _⟩ | ⟨i, e, h1, h2, h3, h4⟩
  · obtain ⟨e, he, hle⟩ := h
    exact absurd hle (not_le.2 (h1 e he))
  · have : chooseStart center l = e := by
      unfold chooseStart
      simp only [h1]
      rw [List.getD_eq_getElem?_getD, h2]
      rfl
    rw [this]
    exact ⟨List.mem_of_getElem? h2, h4⟩

/-- Finding: otherwise the first entry is taken, however far away it is. -/
theorem chooseStart_first (center : ℝ) (e : FitResult) (l : List FitResult) (h : ∀ x ∈ e :: l, |center| < |center - massBinCenter x|) :
    chooseStart center (e :: l) = e := by
  rcases bestStep_inv center (e :: l) with ⟨_, h2⟩ | ⟨i, x, h1, h2, h3, h4⟩
  · unfold chooseStart
    simp only [h2]
    rfl
  · exact absurd h3 (not_le.2 (h x (List.mem_of_getElem? h2)))

/-- an instance: a fit at 0.6 GeV is started from the result at 2 GeV although there is one at 1.5 GeV. -/
theorem chooseStart_not_closest : ∃ (e e' : FitResult), massBinCenter e = 2 ∧ massBinCenter e' = 1.5 ∧ chooseStart 0.6 [e, e'] = e ∧
    |0.6 - massBinCenter e'| < |0.6 - massBinCenter (chooseStart 0.6 [e, e'])| := by
  let e : FitResult := { FitResult.new with multibin := [("mass".toList, (1.9, 2.1))] }
  let e' : FitResult := { FitResult.new with multibin := [("mass".toList, (1.4, 1.6))] }
  have h1 : massBinCenter e = 2 := by
    unfold massBinCenter; simp [e]; norm_num
  have h2 : massBinCenter e' = 1.5 := by
    unfold massBinCenter; simp [e']; norm_num
  have h3 : chooseStart 0.6 [e, e'] = e := by
    apply chooseStart_first
    intro x hx
    simp only [List.mem_cons, List.not_mem_nil, or_false] at hx
    rcases hx with rfl | rfl
    · rw [h1, abs_of_nonneg (by norm_num), abs_of_neg (by norm_num)]; norm_num
    · rw [h2, abs_of_nonneg (by norm_num), abs_of_neg (by norm_num)]; norm_num
  refine ⟨e, e', h1, h2, h3, ?_⟩
  rw [h3, h1, h2, abs_of_neg (by norm_num), abs_of_neg (by norm_num)]
  norm_num

/-- Finding: a fit in a bin without mass that is given a start-value file ends in an uncaught exception, usable or not. -/
theorem pwaFit_no_mass (minimize : List Var → MinResult) (eig : ℕ → (ℕ → ℕ → ℝ) → ℕ → (ℕ → ℝ) × ℝ) (rnd : ℕ → ℝ) (l : Lik) (o : Options)
    (bin : List (Name × ℝ × ℝ)) (f : StartFile) (h : bin.lookup "mass".toList = none) :
    pwaFit minimize eig rnd l o bin (some f) = .terminate := by
  unfold pwaFit readStart
  simp only [h]
  rfl

end Rpwa.PwaFit
