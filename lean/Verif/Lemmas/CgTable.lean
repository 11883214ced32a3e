import Verif.Lemmas.CgCells
/-!
# The unnormalized table
-/
namespace Rpwa.CgBox
open Finset Fraction

theorem foldlM_range {β : Type} (f : β → ℕ → Outcome β) (n : ℕ) (I : ℕ → β → Prop) (x : β) (h0 : I 0 x)
    (hs : ∀ k, k < n → ∀ y, I k y → ∃ z, f y k = .ok z ∧ I (k + 1) z) :
    ∃ z, (List.range n).foldlM f x = .ok z ∧ I n z := by
  induction n with
  | zero => exact ⟨x, rfl, h0⟩
  | succ n ih =>
    obtain ⟨y, h1, h2⟩ := ih (fun k hk => hs k (by omega))
    obtain ⟨z, h3, h4⟩ := hs n (by omega) y h2
    refine ⟨z, ?_, h4⟩
    rw [List.range_succ, List.foldlM_append, h1, Outcome.ok_bind, List.foldlM_cons, h3, Outcome.ok_bind]
    rfl

variable {n1 n2 a : ℕ}

/-- position of the cell -/
def ix (n2 p q : ℕ) : ℕ := p * (n2 + 1) + q

theorem ix_inj {p q p' q' : ℕ} (hq : q ≤ n2) (hq' : q' ≤ n2) (h : ix n2 p q = ix n2 p' q') : p = p' ∧ q = q' := by
  unfold ix at h
  have h1 : (p * (n2 + 1) + q) / (n2 + 1) = p := by
    rw [Nat.mul_comm, Nat.mul_add_div (by omega), Nat.div_eq_of_lt (by omega)]; rfl
  have h2 : (p' * (n2 + 1) + q') / (n2 + 1) = p' := by
    rw [Nat.mul_comm, Nat.mul_add_div (by omega), Nat.div_eq_of_lt (by omega)]; rfl
  have hp : p = p' := by rw [← h1, h, h2]
  subst hp
  exact ⟨rfl, by omega⟩

theorem ix_lt {p q : ℕ} (hp : p ≤ n1) (hq : q ≤ n2) : ix n2 p q < (n1 + 1) * (n2 + 1) := by
  unfold ix
  have : p * (n2 + 1) ≤ n1 * (n2 + 1) := Nat.mul_le_mul_right _ hp
  have e : (n1 + 1) * (n2 + 1) = n1 * (n2 + 1) + (n2 + 1) := by ring
  omega

/-- the cells in `D` are filled -/
structure Inv (n1 n2 a : ℕ) (D : ℕ → ℕ → Prop) (t : List Frac) : Prop where
  len : t.length = (n1 + 1) * (n2 + 1)
  val : ∀ p q, p ≤ n1 → q ≤ n2 → D p q → ∃ f, t[ix n2 p q]? = some f ∧ Ok f (Tv n1 n2 a p q)

theorem Inv.mono {D D' : ℕ → ℕ → Prop} {t : List Frac} (h : Inv n1 n2 a D t)
    (hD : ∀ p q, p ≤ n1 → q ≤ n2 → D' p q → D p q) : Inv n1 n2 a D' t :=
  ⟨h.len, fun p q hp hq hd => h.val p q hp hq (hD p q hp hq hd)⟩

theorem Inv.rd {D : ℕ → ℕ → Prop} {t : List Frac} (h : Inv n1 n2 a D t) {p q : ℕ} (hp : p ≤ n1) (hq : q ≤ n2) (hd : D p q)
    {i : ℤ} (hi : i = ix n2 p q) : ∃ f, rd t i = .ok f ∧ Ok f (Tv n1 n2 a p q) := by
  obtain ⟨f, h1, h2⟩ := h.val p q hp hq hd
  refine ⟨f, ?_, h2⟩
  unfold CgBox.rd
  rw [if_neg (by omega), hi, Int.toNat_natCast, h1]

theorem Inv.wr {D : ℕ → ℕ → Prop} {t : List Frac} (h : Inv n1 n2 a D t) {p q : ℕ} (hp : p ≤ n1) (hq : q ≤ n2)
    {i : ℤ} (hi : i = ix n2 p q) {f : Frac} (hf : Ok f (Tv n1 n2 a p q)) :
    ∃ t', wr t i f = .ok t' ∧ Inv n1 n2 a (fun p' q' => D p' q' ∨ (p' = p ∧ q' = q)) t' := by
  have hl := ix_lt hp hq
  unfold CgBox.wr
  rw [hi, Int.toNat_natCast, if_pos ⟨by omega, by rw [h.len]; exact hl⟩]
  refine ⟨_, rfl, by rw [List.length_set]; exact h.len, fun p' q' hp' hq' hd => ?_⟩
  by_cases he : p' = p ∧ q' = q
  · obtain ⟨rfl, rfl⟩ := he
    exact ⟨f, by rw [List.getElem?_set_self (by rw [h.len]; exact hl)], hf⟩
  · obtain ⟨g, h1, h2⟩ := h.val p' q' hp' hq' (hd.resolve_right he)
    refine ⟨g, ?_, h2⟩
    rw [List.getElem?_set_ne, h1]
    intro e
    obtain ⟨e1, e2⟩ := ix_inj hq hq' e
    exact he ⟨e1.symm, e2.symm⟩

theorem pos_eq (p q : ℕ) (P Q : ℤ) (hP : P = p) (hQ : Q = q) :
    pos n1 n2 (-(n1 : ℤ) + 2 * P) (-(n2 : ℤ) + 2 * Q) = ix n2 p q := by
  subst hP hQ
  unfold pos ix
  have e : (-(n1 : ℤ) + 2 * p + n1) * (n2 + 1) + (-(n2 : ℤ) + 2 * q + n2) = 2 * ((p * (n2 + 1) + q : ℕ) : ℤ) := by
    push_cast; ring
  rw [e, Int.mul_tdiv_cancel_left _ (by decide)]

theorem ix_left (p q : ℕ) (hp : 1 ≤ p) : (ix n2 p q : ℤ) - (n2 + 1) = ix n2 (p - 1) q := by
  unfold ix
  obtain ⟨k, rfl⟩ : ∃ k, p = k + 1 := ⟨p - 1, by omega⟩
  rw [Nat.add_sub_cancel]
  push_cast
  ring

theorem minTwoM1_eq : minTwoM1 (n1 + n2 - 2 * a) n1 n2 = -(n1 : ℤ) + 2 * 0 ∨ n2 < a := by
  by_cases h : n2 < a
  · exact Or.inr h
  · left
    unfold minTwoM1
    rw [if_neg (by omega)]; ring

theorem Tv_zero {p q : ℤ} (h : p < 0 ∨ n1 < p ∨ q < 0 ∨ n2 < q ∨ p + q < a ∨ (n1 : ℤ) + n2 - a < p + q) :
    Tv n1 n2 a p q = 0 := by
  unfold Tv; rw [hs_zero p q h, ssq_zero, zero_mul]

theorem intdiv (n d : ℤ) (x : ℚ) (h : (n : ℚ) / (d : ℚ) = x) {f : Frac} (hf : Ok f (n / d)) : Ok f x := h ▸ hf

/-- one element with `m2 < j2` -/
theorem setInner_ok (h1 : a ≤ n1) (h2 : a ≤ n2) {p q : ℕ} (hp : p ≤ n1) (hq : q + 1 ≤ n2) {t : List Frac}
    {D : ℕ → ℕ → Prop} (ht : Inv n1 n2 a D t) (hprev : 1 ≤ p → ∀ q', q' ≤ n2 → D (p - 1) q')
    (hfirst : p = 0 → D 0 (q + 1)) :
    ∃ t', setInner (n1 + n2 - 2 * a) n1 n2 (-(n1 : ℤ) + 2 * p) t (-(n2 : ℤ) + 2 * q) = .ok t' ∧
      Inv n1 n2 a (fun p' q' => D p' q' ∨ (p' = p ∧ q' = q)) t' := by
  have hmin : minTwoM1 (n1 + n2 - 2 * a) n1 n2 = -(n1 : ℤ) + 2 * 0 := minTwoM1_eq.resolve_right (by omega)
  have hix : pos n1 n2 (-(n1 : ℤ) + 2 * p) (-(n2 : ℤ) + 2 * q) = ix n2 p q := pos_eq p q _ _ rfl rfl
  unfold setInner
  dsimp only
  rw [hix, hmin]
  by_cases hz : (-(n1 : ℤ) + 2 * p) + (-(n2 : ℤ) + 2 * q) < -((n1 : ℤ) + n2 - 2 * a) ∨ (-(n1 : ℤ) + 2 * p) + (-(n2 : ℤ) + 2 * q) > (n1 : ℤ) + n2 - 2 * a
  · rw [if_pos hz]
    refine ht.wr hp (by omega) rfl ?_
    rw [Tv_zero (by omega)]
    exact ok_zero
  rw [if_neg hz]
  by_cases h0 : p = 0
  · subst h0
    rw [if_pos (by simp)]
    obtain ⟨c, hc, oc⟩ := ht.rd (p := 0) (q := q + 1) hp hq (hfirst rfl) (i := (ix n2 0 q : ℤ) + 1) (by unfold ix; push_cast; ring)
    obtain ⟨f, hf, of⟩ := frac_ok (((n1 : ℤ) + n2 - 2 * a - (-(n1 : ℤ) + 2 * (0 : ℕ) + (-(n2 : ℤ) + 2 * q))) * (n1 + n2 - 2 * a + (-(n1 : ℤ) + 2 * (0 : ℕ) + (-(n2 : ℤ) + 2 * q)) + 2))
      ((n2 - (-(n2 : ℤ) + 2 * q)) * (n2 + (-(n2 : ℤ) + 2 * q) + 2)) (mul_ne_zero (by omega) (by omega))
    rw [hc, Outcome.ok_bind, hf, Outcome.ok_bind]
    refine ht.wr hp (by omega) rfl ?_
    have := mul_ok oc of
    have hv := cell_first (n1 := n1) (n2 := n2) (a := a) (q := q) (by omega) (by omega) (by omega) (by omega)
    push_cast at this hv
    show Ok (mul c f) (Tv n1 n2 a ((0 : ℕ) : ℤ) q)
    rw [Nat.cast_zero, ← hv]
    convert this using 2
    ring_nf
  have hp1 : 1 ≤ p := by omega
  rw [if_neg (by omega)]
  have hpc : ((p - 1 : ℕ) : ℤ) = (p : ℤ) - 1 := by omega
  have hqc : ((q + 1 : ℕ) : ℤ) = (q : ℤ) + 1 := by omega
  have hdn : ((n1 : ℤ) + (-(n1 : ℤ) + 2 * p)) * (n1 - (-(n1 : ℤ) + 2 * p) + 2) ≠ 0 := mul_ne_zero (by omega) (by omega)
  obtain ⟨c2, hc2, oc2⟩ := ht.rd (p := p - 1) (q := q + 1) (by omega) hq (hprev hp1 _ hq) (i := (ix n2 p q : ℤ) - (n2 + 1) + 1)
      (by rw [ix_left p q hp1]; unfold ix; push_cast; ring)
  rw [hpc, hqc] at oc2
  have hy := cell_y (n1 := n1) (n2 := n2) (a := a) (p := p) (q := q) (by omega) (by omega) (by omega) (by omega)
  have hm := hs_middle (n1 := n1) (n2 := n2) (a := a) (p := p) (q := q) (by omega)
  by_cases hl : (-(n1 : ℤ) + 2 * p) + (-(n2 : ℤ) + 2 * q) ≠ -((n1 : ℤ) + n2 - 2 * a)
  · rw [if_pos hl]
    obtain ⟨c1, hc1, oc1⟩ := ht.rd (p := p - 1) (q := q) (by omega) (by omega) (hprev hp1 _ (by omega)) (i := (ix n2 p q : ℤ) - (n2 + 1))
      (ix_left p q hp1)
    rw [hpc] at oc1
    obtain ⟨f1, hf1, of1⟩ := frac_ok (((n1 : ℤ) + n2 - 2 * a + (-(n1 : ℤ) + 2 * p + (-(n2 : ℤ) + 2 * q))) * (n1 + n2 - 2 * a - (-(n1 : ℤ) + 2 * p + (-(n2 : ℤ) + 2 * q)) + 2))
      _ hdn
    obtain ⟨f2, hf2, of2⟩ := frac_ok ((n2 - (-(n2 : ℤ) + 2 * q)) * (n2 + (-(n2 : ℤ) + 2 * q) + 2)) _ hdn
    have hx := cell_x (n1 := n1) (n2 := n2) (a := a) (p := p) (q := q) (by omega) (by omega) (by omega) (by omega)
    have o1 := mul_ok oc1 of1
    have o2 := mul_ok oc2 of2
    push_cast at o1 o2 hx hy hm
    rw [hx] at o1
    rw [hy] at o2
    obtain ⟨r, hr, or⟩ := rootDiff_ok o1 o2 (Pr_pos _ _)
    rw [← hm] at or
    rw [hc1, Outcome.ok_bind, hf1, Outcome.ok_bind, hc2, Outcome.ok_bind, hf2, Outcome.ok_bind, hr, Outcome.ok_bind]
    exact ht.wr hp (by omega) rfl or
  · rw [if_neg hl]
    obtain ⟨f2, hf2, of2⟩ := frac_ok (-(n2 - (-(n2 : ℤ) + 2 * q)) * (n2 + (-(n2 : ℤ) + 2 * q) + 2)) _ hdn
    have o2 := mul_ok oc2 of2
    push_cast at o2 hy hm
    rw [hc2, Outcome.ok_bind, hf2, Outcome.ok_bind]
    refine ht.wr hp (by omega) rfl ?_
    rw [hs_zero ((p : ℤ) - 1) q (by omega)] at hm
    have e : Tv n1 n2 a p q = -(ssq ((q + 1) / p * hs n1 n2 a ((p : ℤ) - 1) (q + 1)) * Pr n1 n2 a p q) := by
      unfold Tv; rw [hm, mul_zero, zero_sub, ssq_neg]; ring
    rw [e, ← hy]
    convert o2 using 1
    ring

/-- the element with `m2 = j2` -/
theorem setTop_ok (h1 : a ≤ n1) (h2 : a ≤ n2) {p : ℕ} (hp : p ≤ n1) {t : List Frac}
    {D : ℕ → ℕ → Prop} (ht : Inv n1 n2 a D t) (hprev : 1 ≤ p → ∀ q', q' ≤ n2 → D (p - 1) q')
    (hsame : ∀ q', q' < n2 → D p q') (hfirst : p = 0 → D 0 n2) :
    ∃ t', setTop (n1 + n2 - 2 * a) n1 n2 (-(n1 : ℤ) + 2 * p) t = .ok t' ∧
      Inv n1 n2 a (fun p' q' => D p' q' ∨ (p' = p ∧ q' = n2)) t' := by
  have hmin : minTwoM1 (n1 + n2 - 2 * a) n1 n2 = -(n1 : ℤ) + 2 * 0 := minTwoM1_eq.resolve_right (by omega)
  have hix : pos n1 n2 (-(n1 : ℤ) + 2 * p) (n2 : ℤ) = ix n2 p n2 := by
    have := pos_eq (n1 := n1) (n2 := n2) p n2 _ _ rfl rfl
    rw [← this]; congr 1; ring
  unfold setTop
  dsimp only
  rw [hix, hmin]
  by_cases hz : (-(n1 : ℤ) + 2 * p) + n2 < -((n1 : ℤ) + n2 - 2 * a) ∨ (-(n1 : ℤ) + 2 * p) + n2 > (n1 : ℤ) + n2 - 2 * a
  · rw [if_pos hz]
    refine ht.wr hp le_rfl rfl ?_
    rw [Tv_zero (by omega)]
    exact ok_zero
  rw [if_neg hz]
  by_cases h0 : p = 0
  · subst h0
    rw [if_neg (by simp)]
    refine ⟨t, rfl, ht.len, fun p' q' hp' hq' hd => ?_⟩
    rcases hd with hd | ⟨rfl, rfl⟩
    · exact ht.val p' q' hp' hq' hd
    · exact ht.val 0 _ hp le_rfl (hfirst rfl)
  have hp1 : 1 ≤ p := by omega
  rw [if_pos (by omega)]
  have hpc : ((p - 1 : ℕ) : ℤ) = (p : ℤ) - 1 := by omega
  have hdn : ((n1 : ℤ) + n2 - 2 * a - (-(n1 : ℤ) + 2 * p + n2) + 2) * (n1 + n2 - 2 * a + (-(n1 : ℤ) + 2 * p + n2)) ≠ 0 :=
    mul_ne_zero (by omega) (by omega)
  obtain ⟨c1, hc1, oc1⟩ := ht.rd (p := p - 1) (q := n2) (by omega) le_rfl (hprev hp1 _ le_rfl) (i := (ix n2 p n2 : ℤ) - (n2 + 1))
      (ix_left p n2 hp1)
  rw [hpc] at oc1
  obtain ⟨f1, hf1, of1⟩ := frac_ok (((n1 : ℤ) + (-(n1 : ℤ) + 2 * p)) * (n1 - (-(n1 : ℤ) + 2 * p) + 2)) _ hdn
  obtain ⟨f2, hf2, of2⟩ := frac_ok (((n2 : ℤ) + n2) * (n2 - n2 + 2)) _ hdn
  have hu := cell_u (n1 := n1) (n2 := n2) (a := a) (p := p) (by omega) (by omega) (by omega) (by omega)
  have hc := hs_column (n1 := n1) (n2 := n2) (a := a) (p := p) (by omega)
  have hnn := hs_top_nonneg (n1 := n1) (n2 := n2) (a := a) p
  have o1 := mul_ok oc1 of1
  push_cast at o1 hu hc hnn
  rw [hu] at o1
  have fin : ∃ c2, rd t ((ix n2 p n2 : ℤ) - 1) = .ok c2 ∧
      Ok (mul c2 f2) (ssq (1 / ((p : ℚ) + n2 - a) * hs n1 n2 a p (n2 - 1)) * Pr n1 n2 a p n2) := by
    by_cases hn : n2 = 0
    · subst hn
      obtain ⟨c2, hc2, oc2⟩ := ht.rd (p := p - 1) (q := 0) (by omega) le_rfl (hprev hp1 _ le_rfl) (i := (ix 0 p 0 : ℤ) - 1)
        (by rw [← ix_left p 0 hp1]; simp)
      refine ⟨c2, hc2, ?_⟩
      have o2 := mul_ok oc2 of2
      rw [hs_zero (n2 := 0) p (((0 : ℕ) : ℤ) - 1) (by omega)]
      simpa [ssq_zero] using o2
    · obtain ⟨c2, hc2, oc2⟩ := ht.rd (p := p) (q := n2 - 1) (by omega) (by omega) (hsame _ (by omega)) (i := (ix n2 p n2 : ℤ) - 1)
        (by unfold ix; push_cast; omega)
      refine ⟨c2, hc2, ?_⟩
      have o2 := mul_ok oc2 of2
      have hv := cell_v (n1 := n1) (n2 := n2) (a := a) (p := p) (by omega) (by omega) (by omega)
      rw [show ((n2 - 1 : ℕ) : ℤ) = (n2 : ℤ) - 1 by omega] at o2
      push_cast at o2 hv
      rw [hv] at o2
      exact o2
  obtain ⟨c2, hc2, o2⟩ := fin
  obtain ⟨r, hr, or⟩ := rootSum_ok o1 o2 (Pr_pos _ _) (by rw [← hc]; exact hnn)
  rw [← hc] at or
  rw [hc1, Outcome.ok_bind, hf1, Outcome.ok_bind, hc2, Outcome.ok_bind, hf2, Outcome.ok_bind, hr, Outcome.ok_bind]
  exact ht.wr hp le_rfl rfl or

/-- the element with `m = -j` once more -/
theorem setLow_ok (h1 : a ≤ n1) (h2 : a ≤ n2) {p : ℕ} (hp : p ≤ n1) {t : List Frac}
    {D : ℕ → ℕ → Prop} (ht : Inv n1 n2 a D t) (hprev : 1 ≤ p → ∀ q', q' ≤ n2 → D (p - 1) q')
    (hsame : ∀ q', q' ≤ n2 → D p q') :
    ∃ t', setLow (n1 + n2 - 2 * a) n1 n2 (-(n1 : ℤ) + 2 * p) t = .ok t' ∧ Inv n1 n2 a D t' := by
  have hmin : minTwoM1 (n1 + n2 - 2 * a) n1 n2 = -(n1 : ℤ) + 2 * 0 := minTwoM1_eq.resolve_right (by omega)
  unfold setLow
  dsimp only
  rw [hmin]
  by_cases hg : (n1 : ℤ) + n2 - 2 * a < n1 + n2 ∧ -(n1 : ℤ) + 2 * p > -(n1 : ℤ) + 2 * 0 ∧ -(n1 : ℤ) + 2 * p ≤ -(-(n1 : ℤ) + 2 * 0)
      ∧ (n1 : ℤ) + n2 - 2 * a + (-(n1 : ℤ) + 2 * p) ≤ n2
  swap
  · rw [if_neg hg]; exact ⟨t, rfl, ht⟩
  rw [if_pos hg]
  have hpa : p ≤ a := by omega
  have hp1 : 1 ≤ p := by omega
  obtain ⟨q, hq⟩ : ∃ q, p + q = a := ⟨a - p, by omega⟩
  have hq1 : q + 1 ≤ n2 := by omega
  have em : -((n1 : ℤ) + n2 - 2 * a) - (-(n1 : ℤ) + 2 * p) = -(n2 : ℤ) + 2 * q := by omega
  rw [em]
  have hix : pos n1 n2 (-(n1 : ℤ) + 2 * p) (-(n2 : ℤ) + 2 * q) = ix n2 p q := pos_eq p q _ _ rfl rfl
  rw [hix]
  have hpc : ((p - 1 : ℕ) : ℤ) = (p : ℤ) - 1 := by omega
  have hqc : ((q + 1 : ℕ) : ℤ) = (q : ℤ) + 1 := by omega
  have hdn : ((n2 : ℤ) - (-(n2 : ℤ) + 2 * q)) * (n2 + (-(n2 : ℤ) + 2 * q) + 2) ≠ 0 := mul_ne_zero (by omega) (by omega)
  obtain ⟨c1, hc1, oc1⟩ := ht.rd (p := p) (q := q + 1) hp hq1 (hsame _ hq1) (i := (ix n2 p q : ℤ) + 1)
      (by unfold ix; push_cast; ring)
  obtain ⟨c2, hc2, oc2⟩ := ht.rd (p := p - 1) (q := q + 1) (by omega) hq1 (hprev hp1 _ hq1) (i := (ix n2 p q : ℤ) - (n2 + 1) + 1)
      (by rw [ix_left p q hp1]; unfold ix; push_cast; ring)
  rw [hqc] at oc1
  rw [hpc, hqc] at oc2
  obtain ⟨f1, hf1, of1⟩ := frac_ok (((n1 : ℤ) + n2 - 2 * a - -((n1 : ℤ) + n2 - 2 * a)) * (n1 + n2 - 2 * a + -((n1 : ℤ) + n2 - 2 * a) + 2)) _ hdn
  obtain ⟨f2, hf2, of2⟩ := frac_ok (((n1 : ℤ) + (-(n1 : ℤ) + 2 * p)) * (n1 - (-(n1 : ℤ) + 2 * p) + 2)) _ hdn
  have hx := cell_low_x (n1 := n1) (n2 := n2) (a := a) (p := p) (q := q) (by omega) (by omega) (by omega)
  have hy := cell_low_y (n1 := n1) (n2 := n2) (a := a) (p := p) (q := q) (by omega) (by omega) (by omega) (by omega)
  have hl := hs_low (n1 := n1) (n2 := n2) (a := a) (p := p) (q := q) (by omega) (by omega)
  have o1 := mul_ok oc1 of1
  have o2 := mul_ok oc2 of2
  push_cast at o1 o2 hx hy hl
  rw [hx] at o1
  rw [hy] at o2
  obtain ⟨r, hr, or⟩ := rootDiff_ok o1 o2 (Pr_pos _ _)
  rw [← hl] at or
  rw [hc1, Outcome.ok_bind, hf1, Outcome.ok_bind, hc2, Outcome.ok_bind, hf2, Outcome.ok_bind, hr, Outcome.ok_bind]
  obtain ⟨t', h3, h4⟩ := ht.wr hp (by omega : q ≤ n2) rfl or
  exact ⟨t', h3, h4.mono fun p' q' _ _ hd => Or.inl hd⟩

/-- cells that are filled before row `p` -/
def Before (n2 p : ℕ) (p' q' : ℕ) : Prop := p' < p ∨ (p' = 0 ∧ q' = n2)

theorem setRow_ok (h1 : a ≤ n1) (h2 : a ≤ n2) {p : ℕ} (hp : p ≤ n1) {t : List Frac}
    (ht : Inv n1 n2 a (Before n2 p) t) :
    ∃ t', setRow (n1 + n2 - 2 * a) n1 n2 t (-(n1 : ℤ) + 2 * p) = .ok t' ∧ Inv n1 n2 a (Before n2 (p + 1)) t' := by
  unfold setRow loopDown
  have e : ((((n2 : ℤ) - 2) - -(n2 : ℤ) + 2) / 2).toNat = n2 := by omega
  rw [e, List.foldlM_map]
  obtain ⟨t1, h3, h4⟩ := foldlM_range
    (fun x (y : ℕ) => setInner (n1 + n2 - 2 * a) n1 n2 (-(n1 : ℤ) + 2 * p) x ((n2 : ℤ) - 2 - 2 * (y : ℤ))) n2
    (fun k t => Inv n1 n2 a (fun p' q' => Before n2 p p' q' ∨ (p' = p ∧ q' < n2 ∧ n2 ≤ q' + k)) t) t
    (ht.mono fun p' q' _ _ hd => by rcases hd with hd | hd; exacts [hd, by omega]) (by
      intro k hk y hy
      obtain ⟨q, hq⟩ : ∃ q, q + k + 1 = n2 := ⟨n2 - 1 - k, by omega⟩
      have em : (n2 : ℤ) - 2 - 2 * (k : ℤ) = -(n2 : ℤ) + 2 * q := by omega
      rw [em]
      obtain ⟨z, g1, g2⟩ := setInner_ok h1 h2 hp (q := q) (by omega) hy
        (fun hp1 q' _ => Or.inl (Or.inl (by omega)))
        (fun h0 => by
          by_cases hk0 : k = 0
          · left; right; omega
          · right; omega)
      refine ⟨z, g1, g2.mono fun p' q' _ _ hd => ?_⟩
      rcases hd with hd | hd
      · exact Or.inl (Or.inl hd)
      · by_cases he : q' = q
        · exact Or.inr ⟨hd.1, he⟩
        · exact Or.inl (Or.inr (by omega)))
  rw [h3, Outcome.ok_bind]
  obtain ⟨t2, h5, h6⟩ := setTop_ok h1 h2 hp h4 (fun hp1 q' _ => Or.inl (Or.inl (by omega)))
    (fun q' hq' => Or.inr (by omega)) (fun h0 => Or.inl (Or.inr ⟨rfl, rfl⟩))
  rw [h5, Outcome.ok_bind]
  obtain ⟨t3, h7, h8⟩ := setLow_ok h1 h2 hp h6 (fun hp1 q' _ => Or.inl (Or.inl (Or.inl (by omega))))
    (fun q' hq' => by
      by_cases he : q' = n2
      · exact Or.inr ⟨rfl, he⟩
      · exact Or.inl (Or.inr (by omega)))
  refine ⟨t3, h7, h8.mono fun p' q' _ hq' hd => ?_⟩
  rcases hd with hd | hd
  · by_cases he : p' < p
    · exact Or.inl (Or.inl (Or.inl he))
    · by_cases hn : q' = n2
      · exact Or.inr ⟨by omega, hn⟩
      · exact Or.inl (Or.inr (by omega))
  · exact Or.inl (Or.inl (Or.inr hd))

theorem Tv_first (h1 : a ≤ n1) (h2 : a ≤ n2) : Tv n1 n2 a 0 n2 = 1 := by
  unfold Tv hs Pr
  rw [div_self (gs_first_ne h1 h2), div_self (Pf_pos _ _ _ _ _).ne']
  simp [ssq]

theorem rawTable_ok (h1 : a ≤ n1) (h2 : a ≤ n2) :
    ∃ t, rawTable (n1 + n2 - 2 * a) n1 n2 = .ok t ∧ Inv n1 n2 a (fun _ _ => True) t := by
  have hmin : minTwoM1 (n1 + n2 - 2 * a) n1 n2 = -(n1 : ℤ) + 2 * 0 := minTwoM1_eq.resolve_right (by omega)
  unfold rawTable
  dsimp only
  rw [if_neg (by have : 0 ≤ ((n1 : ℤ) + 1) * (n2 + 1) := by positivity
                 omega)]
  obtain ⟨f, hf, of⟩ := frac_ok 1 1 (by decide)
  rw [hf, Outcome.ok_bind, hmin]
  have e0 : (((n1 : ℤ) + 1) * (n2 + 1)).toNat = (n1 + 1) * (n2 + 1) := by
    have : ((n1 : ℤ) + 1) * (n2 + 1) = (((n1 + 1) * (n2 + 1) : ℕ) : ℤ) := by push_cast; ring
    rw [this, Int.toNat_natCast]
  have hi0 : Inv n1 n2 a (fun _ _ => False) (List.replicate (((n1 : ℤ) + 1) * (n2 + 1)).toNat default1) :=
    ⟨by rw [List.length_replicate, e0], fun p q _ _ h => h.elim⟩
  have of' : Ok f (Tv n1 n2 a ((0 : ℕ) : ℤ) (n2 : ℤ)) := by
    rw [Nat.cast_zero, Tv_first h1 h2]
    simpa using of
  obtain ⟨t0, h3, h4⟩ := hi0.wr (p := 0) (q := n2) (Nat.zero_le _) le_rfl
    (i := (-(n1 : ℤ) + 2 * 0 + n1).tdiv 2 * (n2 + 1) + (n2 + 1) - 1) (by unfold ix; simp) of'
  rw [h3, Outcome.ok_bind]
  unfold loopUp
  have e : (((n1 : ℤ) - -(n1 : ℤ) + 2) / 2).toNat = n1 + 1 := by omega
  rw [e, List.foldlM_map]
  obtain ⟨t, h5, h6⟩ := foldlM_range
    (fun x (y : ℕ) => setRow (n1 + n2 - 2 * a) n1 n2 x (-(n1 : ℤ) + 2 * (y : ℤ))) (n1 + 1)
    (fun k t => Inv n1 n2 a (Before n2 k) t) t0
    (h4.mono fun p' q' _ _ hd => Or.inr (hd.resolve_left (by omega)))
    (fun k hk y hy => setRow_ok h1 h2 (by omega) hy)
  exact ⟨t, h5, h6.mono fun p' q' hp' _ _ => Or.inl (by omega)⟩

end Rpwa.CgBox
