import Verif.Lemmas.CgTable
/-!
# Normalization and sign of the table
-/
namespace Rpwa.CgBox
open Finset Fraction

variable {n1 n2 a : ℕ}

theorem ix_div {p q : ℕ} (hq : q ≤ n2) : ix n2 p q / (n2 + 1) = p := by
  unfold ix
  rw [Nat.mul_comm, Nat.mul_add_div (by omega), Nat.div_eq_of_lt (by omega)]; rfl

theorem ix_mod {p q : ℕ} (hq : q ≤ n2) : ix n2 p q % (n2 + 1) = q := by
  unfold ix
  rw [Nat.mul_comm, Nat.mul_add_mod, Nat.mod_eq_of_lt (by omega)]

theorem ix_of (i : ℕ) : ix n2 (i / (n2 + 1)) (i % (n2 + 1)) = i := by
  unfold ix
  rw [Nat.mul_comm]; exact Nat.div_add_mod i (n2 + 1)

theorem twoMOf_eq (i : ℕ) : twoMOf n1 n2 i = 2 * ((i / (n2 + 1) + i % (n2 + 1) : ℕ) : ℤ) - n1 - n2 := by
  unfold twoMOf
  have e : ((n2 : ℤ) + 1) = ((n2 + 1 : ℕ) : ℤ) := by push_cast; rfl
  rw [e, Int.tdiv_eq_ediv_of_nonneg (by omega), Int.tmod_eq_emod_of_nonneg (by omega), ← Int.natCast_ediv, ← Int.natCast_emod]
  push_cast
  ring

/-- table with values `V` -/
structure Tab (n1 n2 : ℕ) (V : ℕ → ℕ → ℚ) (t : List Frac) : Prop where
  len : t.length = (n1 + 1) * (n2 + 1)
  val : ∀ i f, t[i]? = some f → Ok f (V (i / (n2 + 1)) (i % (n2 + 1)))

theorem Inv.tab {t : List Frac} (h : Inv n1 n2 a (fun _ _ => True) t) : Tab n1 n2 (fun p q => Tv n1 n2 a p q) t := by
  refine ⟨h.len, fun i f hi => ?_⟩
  have hlt : i < (n1 + 1) * (n2 + 1) := by
    obtain ⟨hl, _⟩ := List.getElem?_eq_some_iff.mp hi
    rw [← h.len]; exact hl
  have hp : i / (n2 + 1) ≤ n1 := by
    have := (Nat.div_lt_iff_lt_mul (by omega : 0 < n2 + 1)).mpr hlt
    omega
  have hq : i % (n2 + 1) ≤ n2 := by have := Nat.mod_lt i (by omega : 0 < n2 + 1); omega
  obtain ⟨g, h1, h2⟩ := h.val _ _ hp hq trivial
  rw [ix_of, hi] at h1
  cases h1
  exact h2

/-- sum over all cells, row by row -/
theorem sum_cells (N1 N2 : ℕ) (F : ℕ → ℕ → ℚ) :
    ∑ i ∈ range (N1 * (N2 + 1)), F (i / (N2 + 1)) (i % (N2 + 1)) = ∑ p ∈ range N1, ∑ q ∈ range (N2 + 1), F p q := by
  induction N1 with
  | zero => simp
  | succ N ih =>
    rw [Nat.add_mul, Nat.one_mul, Finset.sum_range_add (fun i => F (i / (N2 + 1)) (i % (N2 + 1))), ih,
      sum_range_succ (fun p => ∑ q ∈ range (N2 + 1), F p q) N]
    congr 1
    refine sum_congr rfl fun q hq => ?_
    have hq' : q ≤ N2 := by simpa [Nat.lt_succ_iff] using hq
    have e1 := ix_div (p := N) hq'
    have e2 := ix_mod (p := N) hq'
    unfold ix at e1 e2
    rw [e1, e2]

/-- sum over the cells of one diagonal -/
theorem sum_diag (F : ℕ → ℕ → ℚ) (s : ℕ) (hF : ∀ p q, (n1 < p ∨ n2 < q) → F p q = 0) :
    ∑ i ∈ range ((n1 + 1) * (n2 + 1)), (if i / (n2 + 1) + i % (n2 + 1) = s then F (i / (n2 + 1)) (i % (n2 + 1)) else 0) =
      ∑ x ∈ antidiagonal s, F x.1 x.2 := by
  rw [sum_cells (n1 + 1) n2 (fun p q => if p + q = s then F p q else 0), ← sum_product', ← sum_filter]
  refine sum_subset ?_ ?_
  · intro x hx
    rw [mem_filter] at hx
    rw [mem_antidiagonal]; exact hx.2
  · intro x hx hn
    rw [mem_antidiagonal] at hx
    refine hF _ _ ?_
    by_contra hc
    apply hn
    rw [mem_filter, mem_product, mem_range, mem_range]
    omega

/-- the loop that adds up one diagonal -/
theorem sum_loop {t : List Frac} {V : ℕ → ℕ → ℚ} (ht : Tab n1 n2 V t) (s : ℕ) (twom : ℤ) (hm : twom = 2 * s - n1 - n2) :
    ∃ f, t.zipIdx.foldlM (fun s x => if twoMOf n1 n2 x.2 = twom then plus s (absF x.1) else .ok s) zero = .ok f ∧
      Ok f (∑ i ∈ range ((n1 + 1) * (n2 + 1)),
        if i / (n2 + 1) + i % (n2 + 1) = s then |V (i / (n2 + 1)) (i % (n2 + 1))| else 0) := by
  have key : ∀ k, k ≤ t.length → ∃ f,
      (t.zipIdx.take k).foldlM (fun s x => if twoMOf n1 n2 x.2 = twom then plus s (absF x.1) else .ok s) zero = .ok f ∧
      Ok f (∑ i ∈ range k, if i / (n2 + 1) + i % (n2 + 1) = s then |V (i / (n2 + 1)) (i % (n2 + 1))| else 0) := by
    intro k
    induction k with
    | zero => intro _; exact ⟨zero, rfl, by simpa using ok_zero⟩
    | succ k ih =>
      intro hk
      obtain ⟨f, h1, h2⟩ := ih (by omega)
      have hlt : k < t.length := by omega
      have hz : t.zipIdx[k]? = some (t[k], k) := by
        rw [List.getElem?_zipIdx, List.getElem?_eq_getElem hlt]; simp
      rw [List.take_add_one, hz, List.foldlM_append, h1, Outcome.ok_bind, sum_range_succ]
      simp only [Option.toList_some, List.foldlM_cons, List.foldlM_nil]
      have hv := ht.val k t[k] (List.getElem?_eq_getElem hlt)
      by_cases hc : k / (n2 + 1) + k % (n2 + 1) = s
      · rw [if_pos (by rw [twoMOf_eq, hm, hc]), if_pos hc]
        obtain ⟨g, h3, h4⟩ := plus_ok h2 (abs_ok hv)
        exact ⟨g, by rw [h3]; rfl, h4⟩
      · rw [if_neg (by rw [twoMOf_eq, hm]; omega), if_neg hc, add_zero]
        exact ⟨f, rfl, h2⟩
  obtain ⟨f, h1, h2⟩ := key t.length le_rfl
  rw [List.take_of_length_le (by simp)] at h1
  rw [ht.len] at h2
  exact ⟨f, h1, h2⟩

/-- one pass of the normalization -/
theorem normalize_ok {t : List Frac} {V : ℕ → ℕ → ℚ} (ht : Tab n1 n2 V t) (s : ℕ) (twom : ℤ) (hm : twom = 2 * s - n1 - n2)
    (sign : ℤ) (N : ℚ) (hN : N ≠ 0)
    (hsum : (∑ i ∈ range ((n1 + 1) * (n2 + 1)),
      if i / (n2 + 1) + i % (n2 + 1) = s then |V (i / (n2 + 1)) (i % (n2 + 1))| else 0) = N) :
    ∃ t', normalize n1 n2 sign t twom = .ok t' ∧
      Tab n1 n2 (fun p q => if p + q = s then (if sign = -1 then -(V p q * N⁻¹) else V p q * N⁻¹) else V p q) t' := by
  obtain ⟨f, h1, h2⟩ := sum_loop ht s twom hm
  rw [hsum] at h2
  have hi := (invert_ok h2 hN).2
  unfold normalize
  rw [h1, Outcome.ok_bind]
  refine ⟨_, rfl, by rw [List.length_map, List.length_zipIdx]; exact ht.len, fun i g hg => ?_⟩
  rw [List.getElem?_map, List.getElem?_zipIdx] at hg
  cases hti : t[i]? with
  | none => rw [hti] at hg; cases hg
  | some c =>
    rw [hti] at hg
    simp only [Option.map_some, Nat.zero_add, Option.some.injEq] at hg
    have hv := ht.val i c hti
    rw [← hg]
    by_cases hc : i / (n2 + 1) + i % (n2 + 1) = s
    · rw [if_pos (by rw [twoMOf_eq, hm, hc]), if_pos hc]
      by_cases hs : sign = -1
      · rw [if_pos hs, if_pos hs]; exact flipSign_ok (mul_ok hv hi)
      · rw [if_neg hs, if_neg hs]; exact mul_ok hv hi
    · rw [if_neg (by rw [twoMOf_eq, hm]; omega), if_neg hc]
      exact hv

theorem abs_Tv (p q : ℤ) : |Tv n1 n2 a p q| = hs n1 n2 a p q ^ 2 * Pr n1 n2 a p q := by
  unfold Tv
  rw [abs_mul, abs_ssq, abs_of_pos (Pr_pos p q)]

/-- `(2j+1)(j1-j2+j)!(j2-j1+j)!(j1+j2-j)!/(j1+j2+j+1)!` -/
def Dl (n1 n2 a : ℕ) : ℚ :=
  ((n1 + n2 - 2 * a + 1 : ℤ) : ℚ) * fc (n1 - a) * fc (n2 - a) * fc a / fc (n1 + n2 - a + 1)

theorem Dl_pos (h1 : a ≤ n1) (h2 : a ≤ n2) : 0 < Dl n1 n2 a := by
  unfold Dl
  have h0 : (0 : ℚ) < ((n1 + n2 - 2 * a + 1 : ℤ) : ℚ) := by exact_mod_cast (by omega : (0 : ℤ) < n1 + n2 - 2 * a + 1)
  have := fc_pos (n1 - a); have := fc_pos (n2 - a); have := fc_pos a; have := fc_pos (n1 + n2 - a + 1)
  positivity

/-- the norm of a diagonal of the unnormalized table -/
theorem norm_diag (h1 : a ≤ n1) (h2 : a ≤ n2) (s : ℕ) (hs : a ≤ s) (hs' : s + a ≤ n1 + n2) :
    (∑ i ∈ range ((n1 + 1) * (n2 + 1)),
      if i / (n2 + 1) + i % (n2 + 1) = s then |Tv n1 n2 a (i / (n2 + 1) : ℕ) (i % (n2 + 1) : ℕ)| else 0)
      = (Dl n1 n2 a * gs n1 n2 a 0 n2 ^ 2 * Pf n1 n2 a 0 n2)⁻¹ := by
  rw [sum_diag (fun p q => |Tv n1 n2 a p q|) s (fun p q h => by rw [Tv_zero (by omega)]; simp)]
  have hg := gs_first_ne h1 h2
  have hp := (Pf_pos n1 n2 a 0 n2).ne'
  have hd := (Dl_pos h1 h2).ne'
  have hn := norm_all h1 h2 s hs hs'
  have e : ∑ x ∈ antidiagonal s, |Tv n1 n2 a (x.1 : ℕ) (x.2 : ℕ)| =
      fc (s - a) * fc (n1 + n2 - a - s) * Sq n1 n2 a s / (gs n1 n2 a 0 n2 ^ 2 * Pf n1 n2 a 0 n2) := by
    unfold Sq
    rw [mul_sum, Finset.sum_div]
    refine sum_congr rfl fun x hx => ?_
    have hx' : x.1 + x.2 = s := by simpa using hx
    rw [abs_Tv]
    unfold CgBox.hs Pr
    rw [show Pf n1 n2 a x.1 x.2 = Wt n1 n2 x.1 x.2 * fc (s - a) * fc (n1 + n2 - a - s) by
      unfold Pf; rw [show (x.1 : ℤ) + x.2 - a = s - a by omega, show (n1 : ℤ) + n2 - a - x.1 - x.2 = n1 + n2 - a - s by omega]]
    field_simp
  rw [e]
  unfold Dl at hd ⊢
  have f1 := fc_ne (n1 + n2 - a + 1)
  refine eq_inv_of_mul_eq_one_left ?_
  rw [div_mul_eq_mul_div, div_eq_one_iff_eq (mul_ne_zero (pow_ne_zero _ hg) hp)]
  rw [div_mul_eq_mul_div, div_mul_eq_mul_div, mul_div_assoc', div_eq_iff f1, ← hn]
  ring

/-- sign of the value at the first cell -/
def sg (n1 n2 a : ℕ) : ℚ := if gs n1 n2 a 0 n2 < 0 then -1 else 1

theorem foldl_last {α : Type} (l : List (α × ℕ)) (P : α × ℕ → Prop) [DecidablePred P] (g : α → ℤ) (z : ℤ) (i : ℕ)
    (x : α × ℕ) (hx : l[i]? = some x) (hP : P x) (hl : ∀ k y, l[k]? = some y → i < k → ¬ P y) :
    l.foldl (fun s y => if P y then g y.1 else s) z = g x.1 := by
  obtain ⟨hi, rfl⟩ := List.getElem?_eq_some_iff.mp hx
  conv_lhs => rw [← List.take_append_drop (i + 1) l, List.take_add_one, hx]
  rw [List.foldl_append, List.foldl_append]
  simp only [Option.toList_some, List.foldl_cons, List.foldl_nil]
  rw [if_pos hP]
  have : ∀ (l' : List (α × ℕ)) (w : ℤ), (∀ y ∈ l', ¬ P y) → l'.foldl (fun s y => if P y then g y.1 else s) w = w := by
    intro l'
    induction l' with
    | nil => intro w _; rfl
    | cons y l' ih =>
      intro w h
      rw [List.foldl_cons, if_neg (h y (by simp))]
      exact ih w fun z hz => h z (by simp [hz])
  apply this
  intro y hy
  obtain ⟨k, hk⟩ := List.mem_iff_getElem?.mp hy
  rw [List.getElem?_drop] at hk
  exact hl _ y hk (by omega)

theorem overallSign_ok (h1 : a ≤ n1) (h2 : a ≤ n2) {t : List Frac} (ht : Tab n1 n2 (fun p q => Tv n1 n2 a p q) t) :
    overallSign (n1 + n2 - 2 * a) n1 n2 t = if gs n1 n2 a 0 n2 < 0 then -1 else 1 := by
  have hlt := ix_lt (n1 := n1) (n2 := n2) (p := n1) (q := n2 - a) le_rfl (by omega)
  rw [← ht.len] at hlt
  have hti : t[ix n2 n1 (n2 - a)]? = some t[ix n2 n1 (n2 - a)] := List.getElem?_eq_getElem hlt
  have hv := ht.val _ _ hti
  rw [ix_div (by omega), ix_mod (by omega)] at hv
  have hpos : 0 < gs n1 n2 a (n1 : ℕ) (n2 - a : ℕ) := by
    rw [gs_right]
    exact tm_pos (by omega) (by omega) (by omega) (by omega) (by omega) (by omega)
  have hg := gs_first_ne h1 h2
  have hval : Tv n1 n2 a (n1 : ℕ) (n2 - a : ℕ) < 0 ↔ gs n1 n2 a 0 n2 < 0 := by
    have e : Tv n1 n2 a (n1 : ℕ) (n2 - a : ℕ) < 0 ↔ hs n1 n2 a (n1 : ℕ) (n2 - a : ℕ) < 0 := by
      unfold Tv
      conv_lhs => rw [← zero_mul (Pr n1 n2 a (n1 : ℕ) (n2 - a : ℕ)), mul_lt_mul_iff_left₀ (Pr_pos _ _), ← ssq_zero, ssq_lt]
    rw [e]
    unfold hs
    rw [div_neg_iff]
    constructor
    · rintro (h | h)
      · exact h.2
      · exact absurd hpos (not_lt.mpr h.1.le)
    · exact fun h => Or.inl ⟨hpos, h⟩
  have hne : Tv n1 n2 a (n1 : ℕ) (n2 - a : ℕ) ≠ 0 := by
    unfold Tv
    refine mul_ne_zero ?_ (Pr_ne _ _)
    have hh : hs n1 n2 a (n1 : ℕ) (n2 - a : ℕ) ≠ 0 := div_ne_zero hpos.ne' hg
    exact mul_ne_zero hh (abs_ne_zero.mpr hh)
  unfold overallSign
  have hz : ∀ i : ℕ, t.zipIdx[i]? = (t[i]?).map fun f => (f, i) := by
    intro i; rw [List.getElem?_zipIdx]; simp
  rw [foldl_last t.zipIdx (fun x => twoMOf n1 n2 x.2 = n1 + n2 - 2 * a ∧ ¬ equal x.1 zero = true) signOf 0
    (ix n2 n1 (n2 - a)) (t[ix n2 n1 (n2 - a)], ix n2 n1 (n2 - a)) (by rw [hz, hti]; rfl) ?_ ?_]
  · unfold signOf
    rw [hv.dval_eq]
    have : ((Tv n1 n2 a (n1 : ℕ) (n2 - a : ℕ) : ℚ) : ℝ) < 0 ↔ gs n1 n2 a 0 n2 < 0 := by
      rw [← hval]; exact_mod_cast Iff.rfl
    by_cases hc : gs n1 n2 a 0 n2 < 0
    · rw [if_pos hc, if_pos (this.mpr hc)]
    · rw [if_neg hc, if_neg (fun h => hc (this.mp h))]
  · refine ⟨?_, ?_⟩
    · show twoMOf n1 n2 (ix n2 n1 (n2 - a)) = _
      rw [twoMOf_eq, ix_div (by omega), ix_mod (by omega)]; omega
    · show ¬ equal t[ix n2 n1 (n2 - a)] zero = true
      have hs0 : t[ix n2 n1 (n2 - a)].sign ≠ 0 := fun h => hne (hv.sign_zero_iff.mp h)
      unfold equal
      rw [if_neg (fun h => hs0 h.1), if_pos (by simpa [zero] using hs0)]
      simp
  · intro k y hk hlt'
    rw [hz] at hk
    cases htk : t[k]? with
    | none => rw [htk] at hk; cases hk
    | some c =>
      rw [htk] at hk
      cases hk
      rintro ⟨hm, -⟩
      have hkl : k < (n1 + 1) * (n2 + 1) := by
        obtain ⟨hl, _⟩ := List.getElem?_eq_some_iff.mp htk
        rw [← ht.len]; exact hl
      have hm' : twoMOf n1 n2 k = n1 + n2 - 2 * a := hm
      rw [twoMOf_eq] at hm'
      have hp : k / (n2 + 1) ≤ n1 := by
        have := (Nat.div_lt_iff_lt_mul (by omega : 0 < n2 + 1)).mpr hkl
        omega
      have hp' : n1 ≤ k / (n2 + 1) := by
        have := Nat.div_le_div_right (c := n2 + 1) hlt'.le
        rwa [ix_div (by omega)] at this
      have e := ix_of (n2 := n2) k
      have hpe : k / (n2 + 1) = n1 := le_antisymm hp hp'
      rw [hpe] at e hm'
      unfold ix at e hlt'
      omega

/-- value of an element of the table -/
def Cv (n1 n2 a : ℕ) (p q : ℕ) : ℚ := ssq (gs n1 n2 a p q) * Pf n1 n2 a p q * Dl n1 n2 a

theorem Cv_eq (h1 : a ≤ n1) (h2 : a ≤ n2) (p q : ℕ) :
    (if (if gs n1 n2 a 0 n2 < 0 then (-1 : ℤ) else 1) = -1
      then -(Tv n1 n2 a p q * ((Dl n1 n2 a * gs n1 n2 a 0 n2 ^ 2 * Pf n1 n2 a 0 n2)⁻¹)⁻¹)
      else Tv n1 n2 a p q * ((Dl n1 n2 a * gs n1 n2 a 0 n2 ^ 2 * Pf n1 n2 a 0 n2)⁻¹)⁻¹) = Cv n1 n2 a p q := by
  have hg := gs_first_ne h1 h2
  have hp := (Pf_pos n1 n2 a 0 n2).ne'
  unfold Cv Tv hs Pr
  rw [div_eq_mul_inv, ssq_mul, inv_inv]
  by_cases hc : gs n1 n2 a 0 n2 < 0
  · rw [if_pos hc, if_pos rfl]
    have e : ssq (gs n1 n2 a 0 n2)⁻¹ = -((gs n1 n2 a 0 n2)⁻¹ ^ 2) := by
      unfold ssq; rw [abs_inv, abs_of_neg hc, inv_neg]; ring
    rw [e]; field_simp
  · rw [if_neg hc, if_neg (by decide)]
    have e : ssq (gs n1 n2 a 0 n2)⁻¹ = (gs n1 n2 a 0 n2)⁻¹ ^ 2 :=
      ssq_nonneg (inv_nonneg.mpr (not_lt.mp hc))
    rw [e]; field_simp

theorem clebschGordan_ok (h1 : a ≤ n1) (h2 : a ≤ n2) :
    ∃ t, clebschGordan (n1 + n2 - 2 * a) n1 n2 = .ok t ∧ Tab n1 n2 (Cv n1 n2 a) t := by
  obtain ⟨t0, h3, h4⟩ := rawTable_ok h1 h2
  have ht := h4.tab
  have hsign := overallSign_ok h1 h2 ht
  unfold clebschGordan
  rw [h3, Outcome.ok_bind]
  dsimp only
  rw [hsign]
  unfold loopUp
  have e : (((n1 : ℤ) + n2 - 2 * a - -((n1 : ℤ) + n2 - 2 * a) + 2) / 2).toNat = n1 + n2 - 2 * a + 1 := by omega
  rw [e, List.foldlM_map]
  have hd := (Dl_pos h1 h2).ne'
  have hg := gs_first_ne h1 h2
  have hp := (Pf_pos n1 n2 a 0 n2).ne'
  obtain ⟨t, h5, h6⟩ := foldlM_range
    (fun x (y : ℕ) => normalize n1 n2 (if gs n1 n2 a 0 n2 < 0 then -1 else 1) x (-((n1 : ℤ) + n2 - 2 * a) + 2 * (y : ℤ))) (n1 + n2 - 2 * a + 1)
    (fun k t => Tab n1 n2 (fun p q => if p + q < a + k ∧ a ≤ p + q then Cv n1 n2 a p q else Tv n1 n2 a p q) t) t0
    (by
      have : (fun p q : ℕ => if p + q < a + 0 ∧ a ≤ p + q then Cv n1 n2 a p q else Tv n1 n2 a p q) = fun p q : ℕ => Tv n1 n2 a p q := by
        funext p q; rw [if_neg (by omega)]
      rw [this]; exact ht)
    (by
      intro k hk y hy
      obtain ⟨z, g1, g2⟩ := normalize_ok hy (a + k) (-((n1 : ℤ) + n2 - 2 * a) + 2 * (k : ℤ)) (by push_cast; ring)
        (if gs n1 n2 a 0 n2 < 0 then -1 else 1) ((Dl n1 n2 a * gs n1 n2 a 0 n2 ^ 2 * Pf n1 n2 a 0 n2)⁻¹)
        (inv_ne_zero (mul_ne_zero (mul_ne_zero hd (pow_ne_zero _ hg)) hp)) (by
          rw [← norm_diag h1 h2 (a + k) (by omega) (by omega)]
          refine sum_congr rfl fun i _ => ?_
          by_cases hc : i / (n2 + 1) + i % (n2 + 1) = a + k
          · rw [if_pos hc, if_pos hc, if_neg (by omega)]
          · rw [if_neg hc, if_neg hc])
      refine ⟨z, g1, ?_⟩
      have : (fun p q : ℕ => if p + q < a + (k + 1) ∧ a ≤ p + q then Cv n1 n2 a p q else Tv n1 n2 a p q) =
          (fun p q => if p + q = a + k then
            (if (if gs n1 n2 a 0 n2 < 0 then (-1 : ℤ) else 1) = -1
              then -((if p + q < a + k ∧ a ≤ p + q then Cv n1 n2 a p q else Tv n1 n2 a p q) * ((Dl n1 n2 a * gs n1 n2 a 0 n2 ^ 2 * Pf n1 n2 a 0 n2)⁻¹)⁻¹)
              else (if p + q < a + k ∧ a ≤ p + q then Cv n1 n2 a p q else Tv n1 n2 a p q) * ((Dl n1 n2 a * gs n1 n2 a 0 n2 ^ 2 * Pf n1 n2 a 0 n2)⁻¹)⁻¹)
            else (if p + q < a + k ∧ a ≤ p + q then Cv n1 n2 a p q else Tv n1 n2 a p q)) := by
        funext p q
        by_cases hc : p + q = a + k
        · rw [if_pos (by omega), if_pos hc, ← Cv_eq h1 h2 p q]
          rw [if_neg (by omega : ¬ (p + q < a + k ∧ a ≤ p + q))]
        · rw [if_neg hc]
          by_cases hd : p + q < a + k ∧ a ≤ p + q
          · rw [if_pos hd, if_pos (by omega)]
          · rw [if_neg hd, if_neg (by omega)]
      rw [this]
      exact g2)
  refine ⟨t, h5, h6.len, fun i f hi => ?_⟩
  have := h6.val i f hi
  by_cases hc : i / (n2 + 1) + i % (n2 + 1) < a + (n1 + n2 - 2 * a + 1) ∧ a ≤ i / (n2 + 1) + i % (n2 + 1)
  · rwa [if_pos hc] at this
  · rw [if_neg hc] at this
    rw [Tv_zero (by omega)] at this
    unfold Cv
    rw [gs_zero _ _ (by omega), ssq_zero, zero_mul, zero_mul]
    exact this

end Rpwa.CgBox
