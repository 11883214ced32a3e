import Verif.Lemmas.Symmetrization
import Verif.Spec.Symmetrization
import Mathlib.Algebra.BigOperators.Group.List.Basic
import Mathlib.Tactic.FieldSimp
import Mathlib.Data.String.Basic

/-! # C16 – symmetrisation terms -/

namespace Rpwa.Sym
open NextPerm

section
variable {α : Type} [LinearOrder α]

theorem mem_terms (names : List α) (p : List ℕ) :
    (∃ cs ∈ choices (groups names), buildMap names.length (groups names) cs = p) ↔ IsExchange names p := by
  have hfl := groups_flatten names
  have hnd : (groups names).flatten.Nodup := hfl.nodup_iff.2 List.nodup_range
  have hs := fun g hg => (groups_sorted (names := names) g hg).1
  constructor
  · rintro ⟨cs, hcs, rfl⟩
    rw [mem_choices hs] at hcs
    obtain ⟨f, rfl⟩ := exists_fun _ _ hnd hcs
    rw [buildMap_map _ _ _ hfl]
    have hg : ∀ g ∈ groups names, (g.map f).Perm g := by
      rw [List.forall₂_map_left_iff, List.forall₂_same] at hcs
      exact hcs
    constructor
    · refine ((hfl.symm.map f).trans ?_).trans hfl
      rw [List.map_flatten]
      exact List.Perm.flatten_congr hcs
    · intro i hi
      have hpos : i ∈ positions names names[i] := by rw [mem_positions]; simp
      have hmem : positions names names[i] ∈ groups names := by
        simp only [groups, List.mem_map]
        exact ⟨names[i], by rw [mem_keys]; exact List.getElem_mem hi, rfl⟩
      have : f i ∈ positions names names[i] :=
        (hg _ hmem).subset (List.mem_map_of_mem hpos)
      rw [mem_positions] at this
      rw [show ((List.range names.length).map f).getD i 0 = f i by
        simp [List.getD, hi]]
      rw [this]; simp
  · rintro ⟨hp, hnames⟩
    have hlen : p.length = names.length := by simpa using hp.length_eq
    refine ⟨(groups names).map fun g => g.map fun i => p.getD i 0, ?_, ?_⟩
    · rw [mem_choices hs, List.forall₂_map_left_iff, List.forall₂_same]
      intro g hg
      simp only [groups, List.mem_map] at hg
      obtain ⟨nm, -, rfl⟩ := hg
      have hsub : (positions names nm).map (fun i => p.getD i 0) ⊆ positions names nm := by
        intro j hj
        obtain ⟨i, hi, rfl⟩ := List.mem_map.1 hj
        rw [mem_positions] at hi ⊢
        rw [hnames i (List.getElem?_eq_some_iff.1 hi).1, hi]
      have hnd' : ((positions names nm).map fun i => p.getD i 0).Nodup := by
        rw [List.nodup_map_iff_inj_on (positions_nodup _ _)]
        intro i hi j hj hij
        rw [mem_positions] at hi hj
        have h1 : i < p.length := hlen ▸ (List.getElem?_eq_some_iff.1 hi).1
        have h2 : j < p.length := hlen ▸ (List.getElem?_eq_some_iff.1 hj).1
        have hpn : p.Nodup := hp.nodup_iff.2 List.nodup_range
        simp only [List.getD_eq_getElem?_getD, List.getElem?_eq_getElem h1,
          List.getElem?_eq_getElem h2, Option.getD_some] at hij
        exact (hpn.getElem_inj_iff).1 hij
      exact (List.subperm_of_subset hnd' hsub).perm_of_length_le (by simp)
    · rw [buildMap_map _ _ _ hfl]
      apply List.ext_getElem
      · simp [hlen]
      · intro i h1 h2
        simp [List.getD, h2]

theorem buildMap_inj (names : List α) : ∀ cs ∈ choices (groups names), ∀ ds ∈ choices (groups names),
    buildMap names.length (groups names) cs = buildMap names.length (groups names) ds → cs = ds := by
  intro cs hc ds hd h
  have hfl := groups_flatten names
  have hnd : (groups names).flatten.Nodup := hfl.nodup_iff.2 List.nodup_range
  have hs := fun g hg => (groups_sorted (names := names) g hg).1
  rw [mem_choices hs] at hc hd
  obtain ⟨f, rfl⟩ := exists_fun _ _ hnd hc
  obtain ⟨f', rfl⟩ := exists_fun _ _ hnd hd
  rw [buildMap_map _ _ _ hfl, buildMap_map _ _ _ hfl, List.map_inj_left] at h
  apply List.map_congr_left
  intro g hg
  apply List.map_congr_left
  intro i hi
  exact h i (hfl.subset (List.mem_flatten.2 ⟨g, hg, hi⟩))

/-- **C16.** For every non-empty list of final-state particle names the Bose symmetrisation succeeds;
its terms are exactly the exchanges of equally named particles, each exactly once, and all carry the
same real positive weight, one over the square root of their number. -/
theorem bose_terms (names : List α) (hne : names ≠ []) :
    ∃ T, getBoseSymmetrization names = .ok T ∧
      (T.map SymTerm.perm).Nodup ∧
      (∀ p, p ∈ T.map SymTerm.perm ↔ IsExchange names p) ∧
      (∀ t ∈ T, t.factor = ((1 / Real.sqrt T.length : ℝ) : ℂ)) := by
  have hs := fun g hg => (groups_sorted (names := names) g hg).1
  cases hg : groups names with
  | nil =>
    exfalso
    have := (groups_flatten names).length_eq
    rw [hg] at this
    simp at this
    exact hne (List.length_eq_zero_iff.1 this.symm)
  | cons first rest =>
    have hs' := hs
    rw [hg] at hs'
    have hgen := gen_eq names.length (groups names) rest (fun g h => hs' g (by simp [h])) [] first
    have hT : ((visits first).flatMap fun c => (choices rest).map fun cs =>
        buildMap names.length (groups names) ([] ++ c :: cs)) =
        (choices (groups names)).map (buildMap names.length (groups names)) := by
      rw [hg]; simp [choices, List.map_flatMap, Function.comp_def]
    rw [hT] at hgen
    have hlen : (nmbIndist names).foldl (fun x k => x * (k.factorial : ℝ)) 1 =
        ((choices (groups names)).length : ℝ) := by
      rw [choices_length groups_sorted]
      have : ∀ (l : List ℕ) (x : ℝ), l.foldl (fun x k => x * (k.factorial : ℝ)) x =
          x * ((l.map Nat.factorial).prod : ℕ) := by
        intro l
        induction l with
        | nil => simp
        | cons a l ih => intro x; rw [List.foldl_cons, ih]; push_cast [List.map_cons, List.prod_cons]; ring
      rw [this, one_mul]
      congr 2
      simp [nmbIndist, groups, Function.comp_def, positions_length]
    refine ⟨((choices (groups names)).map (buildMap names.length (groups names))).map fun p =>
      ⟨((1 / Real.sqrt ((choices (groups names)).length : ℝ) : ℝ) : ℂ), p⟩, ?_, ?_, ?_, ?_⟩
    · unfold getBoseSymmetrization
      rw [← hlen]
      rw [hg] at hgen ⊢
      simp only [hgen]
    · simp only [List.map_map, Function.comp_def]
      exact (List.nodup_map_iff_inj_on (choices_nodup _)).2 (buildMap_inj names)
    · intro p
      rw [← mem_terms]
      simp only [List.map_map, Function.comp_def, List.mem_map]
    · intro t ht
      simp only [List.mem_map] at ht
      obtain ⟨p, -, rfl⟩ := ht
      simp only [List.length_map]

/-- non-vacuity: three particles, two of them identical -/
example : ∃ T, getBoseSymmetrization ["pi-", "pi+", "pi-"] = .ok T ∧
    [2, 1, 0] ∈ T.map SymTerm.perm ∧ [1, 0, 2] ∉ T.map SymTerm.perm := by
  obtain ⟨T, h1, -, h3, -⟩ := bose_terms ["pi-", "pi+", "pi-"] (by simp)
  refine ⟨T, h1, (h3 _).2 ⟨?_, ?_⟩, fun h => ?_⟩
  · decide
  · decide
  · have := ((h3 _).1 h).2 0 (by decide)
    revert this; decide

/-- **C16.** The squared weights sum to one. -/
theorem bose_normalised (names : List α) (T : List SymTerm) (h : getBoseSymmetrization names = .ok T) :
    (T.map fun t => Complex.normSq t.factor).sum = 1 := by
  have hne : names ≠ [] := by
    rintro rfl
    simp [getBoseSymmetrization, groups, keys] at h
  obtain ⟨T', h1, -, h3, h4⟩ := bose_terms names hne
  rw [h] at h1
  cases h1
  have hpos : 0 < T.length := by
    have hid : List.range names.length ∈ T.map SymTerm.perm := (h3 _).2 ⟨List.Perm.refl _, by
      intro i hi; simp [List.getD, hi]⟩
    obtain ⟨t, ht, -⟩ := List.mem_map.1 hid
    exact List.length_pos_of_mem ht
  rw [List.map_congr_left (g := fun _ => (1 / T.length : ℝ))]
  · simp only [List.map_const', List.sum_replicate, nsmul_eq_mul]
    have : (T.length : ℝ) ≠ 0 := by positivity
    field_simp
  · intro t ht
    rw [h4 t ht, Complex.normSq_ofReal, ← sq, div_pow, Real.sq_sqrt (by positivity)]
    simp

/-! ### The symmetrised amplitude -/

omit [LinearOrder α] in
theorem exchange_comp {names : List α} {p q : List ℕ} (hp : IsExchange names p) (hq : IsExchange names q) :
    IsExchange names (p.map fun k => q.getD k 0) := by
  have hlp : p.length = names.length := by simpa using hp.1.length_eq
  have hlq : q.length = names.length := by simpa using hq.1.length_eq
  have hlt : ∀ i < names.length, p.getD i 0 < names.length := by
    intro i hi
    have : p.getD i 0 ∈ p := by
      have : i < p.length := by omega
      simp [List.getD, this]
    simpa using hp.1.subset this
  constructor
  · refine (hp.1.map _).trans ?_
    have : (List.range names.length).map (fun k => q.getD k 0) = q := by
      apply List.ext_getElem
      · simp [hlq]
      · intro i h1 h2; simp [List.getD, h2]
    rw [this]; exact hq.1
  · intro i hi
    have h1 : i < p.length := by omega
    have : (p.map fun k => q.getD k 0).getD i 0 = q.getD (p.getD i 0) 0 := by
      simp [List.getD, h1]
    rw [this, hq.2 _ (hlt i hi), hp.2 i hi]

/-- **C16.** With Bose symmetrisation on, exchanging the momenta of equally named particles in the event
does not change the amplitude – whatever the un-symmetrised amplitude `A`, the momenta `m` and the
isospin terms. -/
theorem amplitude_exchange_invariant {M : Type} (names : List α) (iso bose : List SymTerm)
    (hb : getBoseSymmetrization names = .ok bose)
    (hiso : ∀ s ∈ iso, ∀ k ∈ s.perm, k < names.length)
    (A : List M → ℂ) (m : ℕ → M) (τ : List ℕ) (hτ : IsExchange names τ) :
    amplitude (combine iso bose) A (fun i => m (τ.getD i 0)) = amplitude (combine iso bose) A m := by
  have hne : names ≠ [] := by
    rintro rfl
    simp [getBoseSymmetrization, groups, keys] at hb
  obtain ⟨T', h1, hnd, hmem, hfac⟩ := bose_terms names hne
  rw [hb] at h1
  cases h1
  have hlτ : τ.length = names.length := by simpa using hτ.1.length_eq
  have hτn : τ.Nodup := hτ.1.nodup_iff.2 List.nodup_range
  -- left multiplication by τ permutes the list of Bose maps
  have hperm : (((bose.map SymTerm.perm).map fun b => b.map fun k => τ.getD k 0)).Perm
      (bose.map SymTerm.perm) := by
    have hsub : ((bose.map SymTerm.perm).map fun b => b.map fun k => τ.getD k 0) ⊆ bose.map SymTerm.perm := by
      intro x hx
      obtain ⟨b, hb', rfl⟩ := List.mem_map.1 hx
      exact (hmem _).2 (exchange_comp ((hmem _).1 hb') hτ)
    have hinj : ((bose.map SymTerm.perm).map fun b => b.map fun k => τ.getD k 0).Nodup := by
      rw [List.nodup_map_iff_inj_on hnd]
      intro b hb1 c hc1 hbc
      have hB := (hmem _).1 hb1
      have hC := (hmem _).1 hc1
      have hlb : b.length = names.length := by simpa using hB.1.length_eq
      have hlc : c.length = names.length := by simpa using hC.1.length_eq
      apply List.ext_getElem (by omega)
      intro i h1 h2
      have hb2 : b[i] < τ.length := by
        have := hB.1.subset (List.getElem_mem h1); simpa [hlτ] using this
      have hc2 : c[i] < τ.length := by
        have := hC.1.subset (List.getElem_mem h2); simpa [hlτ] using this
      have h3 : (b.map fun k => τ.getD k 0)[i]? = (c.map fun k => τ.getD k 0)[i]? := by rw [hbc]
      simp only [List.getElem?_map, List.getElem?_eq_getElem h1, List.getElem?_eq_getElem h2,
        Option.map_some, Option.some.injEq, List.getD_eq_getElem?_getD,
        List.getElem?_eq_getElem hb2, List.getElem?_eq_getElem hc2, Option.getD_some] at h3
      exact (hτn.getElem_inj_iff).1 h3
    exact (List.subperm_of_subset hinj hsub).perm_of_length_le (by simp)
  -- the amplitude as a function of the list of Bose maps
  set w : ℂ := ((1 / Real.sqrt bose.length : ℝ) : ℂ) with hw
  have hform : ∀ m' : ℕ → M, amplitude (combine iso bose) A m' =
      (iso.map fun s => s.factor * w *
        ((bose.map SymTerm.perm).map fun b => A ((s.perm.map fun k => b.getD k 0).map m')).sum).sum := by
    intro m'
    unfold amplitude combine permuted
    rw [List.map_flatMap, List.flatMap_def, List.sum_flatten, List.map_map]
    congr 1
    apply List.map_congr_left
    intro s _
    rw [← List.sum_map_mul_left]
    simp only [Function.comp_apply, List.map_map]
    congr 1
    apply List.map_congr_left
    intro b hb'
    simp only [Function.comp_apply]
    rw [hfac b hb', List.map_map]
  rw [hform, hform]
  congr 1
  apply List.map_congr_left
  intro s hs
  congr 1
  have h2 := (hperm.map fun b => A ((s.perm.map fun k => b.getD k 0).map m)).sum_eq
  rw [← h2]
  rw [List.map_map (l := bose.map SymTerm.perm)]
  congr 1
  apply List.map_congr_left
  intro b hb'
  simp only [Function.comp_apply, List.map_map]
  congr 1
  apply List.map_congr_left
  intro k hk
  have hlb : b.length = names.length := by simpa using ((hmem _).1 hb').1.length_eq
  have hkb : k < b.length := by rw [hlb]; exact hiso s hs k hk
  simp [List.getD, hkb]

/-- non-vacuity: an exchange that is not the identity, with isospin symmetrisation off -/
example : ∃ bose, getBoseSymmetrization ["pi-", "pi+", "pi-"] = .ok bose ∧
    ∀ (A : List ℝ → ℂ) (m : ℕ → ℝ),
      amplitude (combine [⟨1, [0, 1, 2]⟩] bose) A (fun i => m ([2, 1, 0].getD i 0)) =
      amplitude (combine [⟨1, [0, 1, 2]⟩] bose) A m := by
  obtain ⟨T, h1, -⟩ := bose_terms ["pi-", "pi+", "pi-"] (by simp)
  refine ⟨T, h1, fun A m => amplitude_exchange_invariant _ _ _ h1 (by simp) A m _ ⟨?_, ?_⟩⟩
  · decide
  · decide

end

/-! ### Isobars affected by a permutation -/

/-- **C16.** A permutation leaves the isobar above the final-state particles `below` untouched exactly
when it maps these particles among themselves. -/
theorem isobarIsAffected_iff (below perm : List ℕ) :
    isobarIsAffected below perm = false ↔
      ∀ i (h : i < perm.length), i ∈ below ↔ perm[i] ∈ below := by
  unfold isobarIsAffected
  rw [List.any_eq_false]
  simp only [List.mem_range]
  constructor
  · intro h i hi
    have := h i hi
    rw [List.getElem?_eq_getElem hi] at this
    simp only at this
    split at this
    · rename_i h'; rw [h']
    · by_cases h1 : i ∈ below <;> by_cases h2 : perm[i] ∈ below <;> simp_all
  · intro h i hi
    rw [List.getElem?_eq_getElem hi]
    simp only
    have := h i hi
    split
    · simp
    · by_cases h1 : i ∈ below <;> by_cases h2 : perm[i] ∈ below <;> simp_all

example : isobarIsAffected (Tree.fsIndices (.vertex (.fs 0) (.fs 1))) [1, 0, 2] = false ∧
    isobarIsAffected (Tree.fsIndices (.vertex (.fs 0) (.fs 1))) [2, 1, 0] = true := by decide

end Rpwa.Sym
