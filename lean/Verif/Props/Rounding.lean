import Verif.Spec.Rounding
import Verif.Props.Accumulators
import Mathlib.Tactic.Linarith
import Mathlib.Tactic.Ring
import Mathlib.Tactic.Positivity
import Mathlib.Tactic.NormNum
/-! # C64: accuracy of the accumulators -/
namespace Rpwa.Acc

/-! ### compensated sum -/

theorem kahan_step (u x s c y s' d c' A : ℝ) (hu0 : 0 ≤ u) (hu : u ≤ 1 / 100) (hA : 0 ≤ A) (hs : |s| ≤ 2 * A) (hc : |c| ≤ 4 * u * A)
    (e1 : |y - (x - c)| ≤ u * |x - c|) (e2 : |s' - (s + y)| ≤ u * |s + y|) (e3 : |d - (s' - s)| ≤ u * |s' - s|)
    (e4 : |c' - (d - y)| ≤ u * |d - y|) :
    |c'| ≤ 4 * u * (A + |x|) ∧ |s' - c' - (s - c) - x| ≤ 3 * u * |x| + 14 * u ^ 2 * (A + |x|) := by
  have ha : 0 ≤ |x| := abs_nonneg x
  generalize hga : |x| = a at *
  have hp : 0 ≤ u * A := mul_nonneg hu0 hA
  have hq : 0 ≤ u * a := mul_nonneg hu0 ha
  have hpp : 0 ≤ u * (u * A) := mul_nonneg hu0 hp
  have hqq : 0 ≤ u * (u * a) := mul_nonneg hu0 hq
  have hpp1 : u * (u * A) ≤ 1 / 100 * (u * A) := mul_le_mul_of_nonneg_right hu hp
  have hqq1 : u * (u * a) ≤ 1 / 100 * (u * a) := mul_le_mul_of_nonneg_right hu hq
  have hp1 : u * A ≤ 1 / 100 * A := mul_le_mul_of_nonneg_right hu hA
  have hq1 : u * a ≤ 1 / 100 * a := mul_le_mul_of_nonneg_right hu ha
  have hX : |x - c| ≤ a + 4 * (u * A) := by
    have := abs_sub x c
    rw [hga] at this
    linarith only [this, hc]
  have huX : u * |x - c| ≤ u * (a + 4 * (u * A)) := mul_le_mul_of_nonneg_left hX hu0
  have hY : |y| ≤ 1.01 * a + 4.04 * (u * A) := by
    have : |y| ≤ |y - (x - c)| + |x - c| := by
      have := abs_add_le (y - (x - c)) (x - c); simpa using this
    nlinarith only [this, e1, huX, hX, hq1, hpp1]
  have hsy : |s + y| ≤ 2.0404 * A + 1.01 * a := by
    have := abs_add_le s y
    linarith only [this, hs, hY, hp1]
  have hE : |s' - (s + y)| ≤ 2.0404 * (u * A) + 1.01 * (u * a) := by
    have := mul_le_mul_of_nonneg_left hsy hu0
    linarith only [this, e2]
  have hss : |s' - s| ≤ |s' - (s + y)| + |y| := by
    have := abs_add_le (s' - (s + y)) y
    have h2 : s' - (s + y) + y = s' - s := by ring
    rw [h2] at this; exact this
  have hss2 : |s' - s| ≤ 2.0404 * (u * A) + 1.01 * (u * a) + (1.01 * a + 4.04 * (u * A)) := by linarith only [hss, hE, hY]
  have hG : |d - (s' - s)| ≤ 6.0804 * (u * (u * A)) + 1.01 * (u * (u * a)) + 1.01 * (u * a) := by
    have := mul_le_mul_of_nonneg_left hss2 hu0
    linarith only [this, e3]
  have hdy : |d - y| ≤ |s' - (s + y)| + |d - (s' - s)| := by
    have := abs_add_le (s' - (s + y)) (d - (s' - s))
    have h2 : s' - (s + y) + (d - (s' - s)) = d - y := by ring
    rw [h2] at this; exact this
  have hdy2 : |d - y| ≤ 2.102 * (u * A) + 2.04 * (u * a) := by linarith only [hdy, hE, hG, hpp1, hqq1, hp, hq]
  have hK : |c' - (d - y)| ≤ 2.102 * (u * (u * A)) + 2.04 * (u * (u * a)) := by
    have := mul_le_mul_of_nonneg_left hdy2 hu0
    linarith only [this, e4]
  constructor
  · have : |c'| ≤ |c' - (d - y)| + |d - y| := by
      have := abs_add_le (c' - (d - y)) (d - y); simpa using this
    linarith only [this, hK, hdy2, hpp1, hqq1, hp, hq]
  · have h1 : s' - c' - (s - c) - x = (y - (x - c)) + (-(d - (s' - s)) + -(c' - (d - y))) := by ring
    rw [h1]
    have h2 := abs_add_le (y - (x - c)) (-(d - (s' - s)) + -(c' - (d - y)))
    have h3 := abs_add_le (-(d - (s' - s))) (-(c' - (d - y)))
    rw [abs_neg, abs_neg] at h3
    linarith only [h2, h3, e1, huX, hG, hK, hpp, hqq, hp, hq]

theorem kahan_inv (fl : ℝ → ℝ) (u : ℝ) (hfl : Rounds fl u) (hu0 : 0 ≤ u) (hu : u ≤ 1 / 100) (initial : ℝ) (xs : List ℝ)
    (hn : xs.length * u ≤ 1 / 100) :
    ∃ s c : ℝ, (xs.map (toFl fl)).foldl Kahan.add (Kahan.new (toFl fl initial)) = ⟨toFl fl s, toFl fl c⟩ ∧
      |c| ≤ 4 * u * (|initial| + absSum xs) ∧
      |s - c - (initial + xs.sum)| ≤ (3 * u + 14 * xs.length * u ^ 2) * (|initial| + absSum xs) := by
  induction xs using List.reverseRecOn with
  | nil =>
    refine ⟨initial, 0, rfl, ?_, ?_⟩
    · have := abs_nonneg initial
      simp only [abs_zero, absSum, List.map_nil, List.sum_nil, add_zero]
      positivity
    · have := abs_nonneg initial
      simp only [absSum, List.map_nil, List.sum_nil, add_zero, sub_zero, sub_self, abs_zero]
      positivity
  | append_singleton xs x ih =>
    have hlen : ((xs ++ [x]).length : ℝ) = xs.length + 1 := by simp
    rw [hlen] at hn ⊢
    obtain ⟨s, c, e0, hc, hE⟩ := ih (by linarith only [hn, hu0])
    have hab : absSum (xs ++ [x]) = absSum xs + |x| := by simp [absSum]
    have hA0 : 0 ≤ absSum xs := by
      unfold absSum
      apply List.sum_nonneg
      intro y hy
      obtain ⟨z, _, rfl⟩ := List.mem_map.1 hy
      exact abs_nonneg z
    have hA : 0 ≤ |initial| + absSum xs := add_nonneg (abs_nonneg _) hA0
    have hT : |initial + xs.sum| ≤ |initial| + absSum xs := by
      refine (abs_add_le _ _).trans (add_le_add le_rfl ?_)
      unfold absSum
      clear ih e0 hE hc hA0 hA hab hlen hn
      induction xs with
      | nil => simp
      | cons y ys ih => simp only [List.sum_cons, List.map_cons]; exact (abs_add_le _ _).trans (add_le_add le_rfl ih)
    generalize hgA : |initial| + absSum xs = A at *
    have hs : |s| ≤ 2 * A := by
      have h1 := abs_add_le (s - c - (initial + xs.sum)) (c + (initial + xs.sum))
      have h2 := abs_add_le c (initial + xs.sum)
      have h3 : s - c - (initial + xs.sum) + (c + (initial + xs.sum)) = s := by ring
      rw [h3] at h1
      have h4 : u * A ≤ 1 / 100 * A := mul_le_mul_of_nonneg_right hu hA
      have h5 : (xs.length * u) * (u * A) ≤ 1 / 100 * (u * A) :=
        mul_le_mul_of_nonneg_right (by linarith only [hn, hu0]) (mul_nonneg hu0 hA)
      have h6 : (3 * u + 14 * xs.length * u ^ 2) * A = 3 * (u * A) + 14 * ((xs.length * u) * (u * A)) := by ring
      rw [h6] at hE
      linarith only [h1, h2, hE, hc, hT, h4, h5, hA]
    obtain ⟨k1, k2⟩ := kahan_step u x s c (fl (x - c)) (fl (s + fl (x - c))) (fl (fl (s + fl (x - c)) - s))
      (fl (fl (fl (s + fl (x - c)) - s) - fl (x - c))) A hu0 hu hA hs hc (hfl _) (hfl _) (hfl _) (hfl _)
    refine ⟨fl (s + fl (x - c)), fl (fl (fl (s + fl (x - c)) - s) - fl (x - c)), ?_, ?_, ?_⟩
    · rw [List.map_append, List.foldl_append, e0]
      rfl
    · rw [hab, ← add_assoc, hgA]; exact k1
    · rw [hab, ← add_assoc, hgA]
      have h1 := abs_add_le (fl (s + fl (x - c)) - fl (fl (fl (s + fl (x - c)) - s) - fl (x - c)) - (s - c) - x) (s - c - (initial + xs.sum))
      have h2 : ∀ p q : ℝ, (p - q - (s - c) - x) + (s - c - (initial + xs.sum)) = p - q - (initial + (xs ++ [x]).sum) := by
        intro p q; simp only [List.sum_append, List.sum_cons, List.sum_nil]; ring
      rw [h2] at h1
      have ha : 0 ≤ |x| := abs_nonneg x
      have hnx : 0 ≤ 14 * (xs.length : ℝ) * u ^ 2 * |x| := by positivity
      linarith only [h1, k2, hE, hnx]

/-- **C64, compensated sum.** With arithmetic of relative accuracy `u` the error of the compensated accumulator is a few `u` times the sum of the
absolute values of the samples, whatever the number of samples is (as long as it is below `1 / (100 u)`, about `10^14`). -/
theorem compensated_sum_rounded (fl : ℝ → ℝ) (u : ℝ) (hfl : Rounds fl u) (hu0 : 0 ≤ u) (hu : u ≤ 1 / 100) (initial : ℝ) (xs : List ℝ)
    (hn : xs.length * u ≤ 1 / 100) :
    |((xs.map (toFl fl)).foldl Kahan.add (Kahan.new (toFl fl initial))).result.val - (initial + xs.sum)|
      ≤ (7 * u + 14 * xs.length * u ^ 2) * (|initial| + absSum xs) := by
  obtain ⟨s, c, e0, hc, hE⟩ := kahan_inv fl u hfl hu0 hu initial xs hn
  rw [e0]
  show |s - (initial + xs.sum)| ≤ _
  have h1 := abs_add_le (s - c - (initial + xs.sum)) c
  have h2 : s - c - (initial + xs.sum) + c = s - (initial + xs.sum) := by ring
  rw [h2] at h1
  linarith only [h1, hc, hE]

/-! ### cascaded sum -/

/-- `a` is an approximation of `b`, of which `g` bounds the absolute values of the terms, after `k` levels of rounded additions. -/
def Approx (u : ℝ) (k : ℕ) (a b g : ℝ) : Prop := |b| ≤ g ∧ |a - b| ≤ ((1 + u) ^ k - 1) * g

theorem Approx.zero (u : ℝ) (x : ℝ) : Approx u 0 x x |x| := ⟨le_rfl, by simp⟩

theorem Approx.mono {u : ℝ} (hu : 0 ≤ u) {k l : ℕ} (hkl : k ≤ l) {a b g : ℝ} (h : Approx u k a b g) : Approx u l a b g := by
  have hg : 0 ≤ g := (abs_nonneg b).trans h.1
  refine ⟨h.1, h.2.trans (mul_le_mul_of_nonneg_right ?_ hg)⟩
  have := pow_le_pow_right₀ (by linarith only [hu] : (1 : ℝ) ≤ 1 + u) hkl
  linarith only [this]

theorem Approx.add {fl : ℝ → ℝ} {u : ℝ} (hfl : Rounds fl u) (hu : 0 ≤ u) {k : ℕ} {a b g a' b' g' : ℝ} (h : Approx u k a b g) (h' : Approx u k a' b' g') :
    Approx u (k + 1) (fl (a + a')) (b + b') (g + g') := by
  have hg : 0 ≤ g + g' := add_nonneg ((abs_nonneg b).trans h.1) ((abs_nonneg b').trans h'.1)
  have hb : |b + b'| ≤ g + g' := (abs_add_le _ _).trans (add_le_add h.1 h'.1)
  refine ⟨hb, ?_⟩
  have hd : |(a + a') - (b + b')| ≤ ((1 + u) ^ k - 1) * (g + g') := by
    have h1 := abs_add_le (a - b) (a' - b')
    have h2 : a - b + (a' - b') = (a + a') - (b + b') := by ring
    rw [h2] at h1
    have := h.2
    have := h'.2
    linarith
  have hz : |a + a'| ≤ (1 + u) ^ k * (g + g') := by
    have h1 := abs_add_le ((a + a') - (b + b')) (b + b')
    rw [sub_add_cancel] at h1
    linarith only [h1, hd, hb]
  have h3 := abs_add_le (fl (a + a') - (a + a')) ((a + a') - (b + b'))
  rw [sub_add_sub_cancel] at h3
  have h4 := hfl (a + a')
  have h5 := mul_le_mul_of_nonneg_left hz hu
  rw [pow_succ]
  linarith only [h3, h4, h5, hd]

section
variable {fl : ℝ → ℝ} {u : ℝ}

/-- the three buffers after `k` levels. -/
def Buf (u : ℝ) (k : ℕ) (f : ℕ → Fl fl) (F G : ℕ → ℝ) (j : ℕ) : Prop := Approx u k (f j).val (F j) (G j)

theorem passLoop_approx (hfl : Rounds fl u) (hu : 0 ≤ u) (k n : ℕ) : ∀ (i : ℕ) (f : ℕ → Fl fl) (F G : ℕ → ℝ),
    (∀ j < i, Buf u (k + 1) f F G j) → (∀ j, i ≤ j → Buf u k f F G j) →
    ∀ j, Buf u (k + 1) (passLoop f i n) (passLoop F i n) (passLoop G i n) j := by
  induction n with
  | zero =>
    intro i f F G h1 h2 j
    simp only [passLoop]
    by_cases hj : j < i
    · exact h1 j hj
    · exact (h2 j (by omega)).mono hu (by omega)
  | succ n ih =>
    intro i f F G h1 h2
    simp only [passLoop]
    apply ih
    · intro j hj
      unfold Buf
      by_cases hji : j = i
      · simp only [if_pos hji]
        exact Approx.add hfl hu (h2 (2 * i) (by omega)) (h2 (2 * i + 1) (by omega))
      · simp only [if_neg hji]
        exact h1 j (by omega)
    · intro j hj
      unfold Buf
      have hji : j ≠ i := by omega
      simp only [if_neg hji]
      exact h2 j (by omega)

theorem whileLoop_approx (hfl : Rounds fl u) (hu : 0 ≤ u) : ∀ (fuel m d k : ℕ) (f : ℕ → Fl fl) (F G : ℕ → ℝ), m ≤ 2 ^ (d + 1) →
    (∀ j, Buf u k f F G j) → Approx u (k + d + 1) (whileLoop fuel m f).val (whileLoop fuel m F) (whileLoop fuel m G) := by
  intro fuel
  induction fuel with
  | zero =>
    intro m d k f F G _ h
    simp only [whileLoop]
    exact (Approx.add hfl hu (h 0) (h 1)).mono hu (by omega)
  | succ fuel ih =>
    intro m d k f F G hm h
    simp only [whileLoop]
    by_cases h2 : m > 2
    · simp only [if_pos h2]
      cases d with
      | zero => simp at hm; omega
      | succ d =>
        have hp := passLoop_approx hfl hu k (m / 2) 0 f F G (by intro j hj; omega) (fun j _ => h j)
        have e : k + (d + 1) + 1 = (k + 1) + d + 1 := by omega
        rw [e]
        apply ih
        · have : 2 ^ (d + 1 + 1) = 2 * 2 ^ (d + 1) := by rw [pow_succ]; ring
          omega
        · intro j
          unfold Buf
          by_cases h3 : m % 2 > 0
          · simp only [if_pos h3]
            by_cases h4 : j = m / 2
            · simp only [if_pos h4]; exact hp _
            · simp only [if_neg h4]; exact hp _
          · simp only [if_neg h3]; exact hp _
    · simp only [if_neg h2]
      exact (Approx.add hfl hu (h 0) (h 1)).mono hu (by omega)

/-- the three accumulators: rounded, exact, and exact with absolute values. -/
structure Sim (u : ℝ) (a : Casc (Fl fl)) (b g : Casc ℝ) : Prop where
  next : a.sumNext = b.sumNext ∧ a.sumNext = g.sumNext
  index : a.index = b.index ∧ a.index = g.index
  len : a.partials.length = b.partials.length ∧ a.partials.length = g.partials.length
  vals : ∀ i, Approx u 1 (a.partials.getD i 0).val (b.partials.getD i 0) (g.partials.getD i 0)
  cur : a.sumNext = true → Approx u 0 (a.partials.getD a.index 0).val (b.partials.getD a.index 0) (g.partials.getD a.index 0)

private theorem getD_set_self {M : Type*} [Zero M] (l : List M) (i : ℕ) (v : M) (h : i < l.length) : (l.set i v).getD i 0 = v := by
  simp [List.getD, h]

private theorem getD_set_ne {M : Type*} [Zero M] (l : List M) (i j : ℕ) (v : M) (h : i ≠ j) : (l.set i v).getD j 0 = l.getD j 0 := by
  simp [List.getD, List.getElem?_set, h]

private theorem add_next {M : Type*} [Add M] [Zero M] (s : Casc M) (x : M) (h : s.sumNext = true) (hi : s.index < s.partials.length) :
    s.add x = .ok ⟨false, s.index + 1, s.partials.set s.index (s.partials.getD s.index 0 + x)⟩ := by
  unfold Casc.add
  rw [if_pos h, List.getElem?_eq_getElem hi, h]
  simp [List.getD, List.getElem?_eq_getElem hi]

private theorem add_first {M : Type*} [Add M] [Zero M] (s : Casc M) (x : M) (h : s.sumNext = false) (hi : s.index < s.partials.length) :
    s.add x = .ok ⟨true, s.index, s.partials.set s.index x⟩ := by
  unfold Casc.add
  rw [if_neg (by simp [h])]
  simp only
  rw [if_neg (by omega), List.getElem?_eq_getElem hi, h]
  rfl

private theorem add_ub {M : Type*} [Add M] [Zero M] (s : Casc M) (x : M) (hi : ¬ s.index < s.partials.length) : s.add x = .ub := by
  unfold Casc.add
  by_cases h : s.sumNext = true
  · rw [if_pos h, List.getElem?_eq_none (by omega)]
  · rw [if_neg h]
    simp only
    rw [if_pos (by omega)]
    have : ((s.partials ++ List.replicate (s.index - s.partials.length) 0).take s.index)[s.index]? = none := by
      rw [List.getElem?_eq_none]; simp
    rw [this]

theorem sim_add (hfl : Rounds fl u) (hu : 0 ≤ u) (a : Casc (Fl fl)) (b g b' g' : Casc ℝ) (h : Sim u a b g) (x : ℝ)
    (hb : b.add x = .ok b') (hg : g.add |x| = .ok g') : ∃ a', a.add (toFl fl x) = .ok a' ∧ Sim u a' b' g' := by
  have hib : b.index < b.partials.length := by
    by_contra hn; rw [add_ub b x hn] at hb; cases hb
  have hia : a.index < a.partials.length := by rw [h.index.1, h.len.1]; exact hib
  have hig : g.index < g.partials.length := by rw [← h.index.2, ← h.len.2]; exact hia
  have ei : b.index = a.index := h.index.1.symm
  have ei' : g.index = a.index := h.index.2.symm
  cases hn : a.sumNext with
  | true =>
    have hnb : b.sumNext = true := by rw [← h.next.1]; exact hn
    have hng : g.sumNext = true := by rw [← h.next.2]; exact hn
    rw [add_next b x hnb hib] at hb
    rw [add_next g |x| hng hig] at hg
    cases hb; cases hg
    refine ⟨_, add_next a _ hn hia, ⟨⟨rfl, rfl⟩, ⟨by simp [ei], by simp [ei']⟩, ⟨by simp [h.len.1], by simp [h.len.2]⟩, ?_, by simp⟩⟩
    intro i
    simp only
    rw [ei, ei']
    rw [ei] at hib
    rw [ei'] at hig
    by_cases hii : a.index = i
    · subst hii
      rw [getD_set_self _ _ _ hia, getD_set_self _ _ _ hib, getD_set_self _ _ _ hig]
      exact Approx.add hfl hu (h.cur hn) (Approx.zero u x)
    · rw [getD_set_ne _ _ _ _ hii, getD_set_ne _ _ _ _ hii, getD_set_ne _ _ _ _ hii]
      exact h.vals i
  | false =>
    have hnb : b.sumNext = false := by rw [← h.next.1]; exact hn
    have hng : g.sumNext = false := by rw [← h.next.2]; exact hn
    rw [add_first b x hnb hib] at hb
    rw [add_first g |x| hng hig] at hg
    cases hb; cases hg
    refine ⟨_, add_first a _ hn hia, ⟨⟨rfl, rfl⟩, ⟨ei.symm, ei'.symm⟩, ⟨by simp [h.len.1], by simp [h.len.2]⟩, ?_, ?_⟩⟩
    · intro i
      simp only
      rw [ei, ei']
      rw [ei] at hib
      rw [ei'] at hig
      by_cases hii : a.index = i
      · subst hii
        rw [getD_set_self _ _ _ hia, getD_set_self _ _ _ hib, getD_set_self _ _ _ hig]
        exact (Approx.zero u x).mono hu (by omega)
      · rw [getD_set_ne _ _ _ _ hii, getD_set_ne _ _ _ _ hii, getD_set_ne _ _ _ _ hii]
        exact h.vals i
    · intro _
      simp only
      rw [ei, ei']
      rw [ei] at hib
      rw [ei'] at hig
      rw [getD_set_self _ _ _ hia, getD_set_self _ _ _ hib, getD_set_self _ _ _ hig]
      exact Approx.zero u x

theorem sim_addAll (hfl : Rounds fl u) (hu : 0 ≤ u) (xs : List ℝ) : ∀ (a : Casc (Fl fl)) (b g b' g' : Casc ℝ), Sim u a b g →
    b.addAll xs = .ok b' → g.addAll (xs.map fun x => |x|) = .ok g' → ∃ a', a.addAll (xs.map (toFl fl)) = .ok a' ∧ Sim u a' b' g' := by
  induction xs with
  | nil =>
    intro a b g b' g' h hb hg
    cases hb; cases hg
    exact ⟨a, rfl, h⟩
  | cons x xs ih =>
    intro a b g b' g' h hb hg
    simp only [List.map_cons, Casc.addAll] at hb hg ⊢
    cases hb1 : b.add x with
    | ok b1 =>
      cases hg1 : g.add |x| with
      | ok g1 =>
        rw [hb1] at hb
        rw [hg1] at hg
        obtain ⟨a1, ha1, hs1⟩ := sim_add hfl hu a b g b1 g1 h x hb1 hg1
        rw [ha1]
        exact ih a1 b1 g1 b' g' hs1 hb hg
      | terminate => rw [hg1] at hg; cases hg
      | ub => rw [hg1] at hg; cases hg
    | terminate => rw [hb1] at hb; cases hb
    | ub => rw [hb1] at hb; cases hb

theorem sim_result (hfl : Rounds fl u) (hu : 0 ≤ u) (a : Casc (Fl fl)) (b g : Casc ℝ) (h : Sim u a b g) (e : ℕ) (he : a.partials.length ≤ 2 ^ e) :
    Approx u (e + 1) a.result.val b.result g.result := by
  obtain ⟨l1, l2⟩ := h.len
  have v := h.vals
  unfold Casc.result
  simp only [← l1, ← l2]
  by_cases h0 : a.partials.length = 0
  · simp only [if_pos h0]
    refine ⟨by simp, ?_⟩
    show |(0 : ℝ) - 0| ≤ _
    simp
  simp only [if_neg h0]
  by_cases h1 : a.partials.length = 1
  · simp only [if_pos h1]
    exact (v 0).mono hu (by omega)
  simp only [if_neg h1]
  by_cases h2 : a.partials.length = 2
  · simp only [if_pos h2]
    have : 1 ≤ e := by
      by_contra hc
      have : e = 0 := by omega
      subst this
      simp at he; omega
    exact (Approx.add hfl hu (v 0) (v 1)).mono hu (by omega)
  simp only [if_neg h2]
  obtain ⟨d, rfl⟩ : ∃ d, e = d + 2 := by
    refine ⟨e - 2, ?_⟩
    by_contra hc
    have : e = 0 ∨ e = 1 := by omega
    rcases this with rfl | rfl <;> simp at he <;> omega
  have e1 : d + 2 + 1 = 2 + d + 1 := by omega
  rw [e1]
  apply whileLoop_approx hfl hu
  · have : 2 ^ (d + 2) = 2 * 2 ^ (d + 1) := by rw [pow_succ]; ring
    omega
  · intro j
    unfold Buf
    by_cases hj : j < a.partials.length / 2
    · simp only [if_pos hj]
      exact Approx.add hfl hu (v _) (v _)
    · simp only [if_neg hj]
      by_cases hj2 : j = a.partials.length / 2
      · simp only [if_pos hj2]
        exact (v _).mono hu (by omega)
      · simp only [if_neg hj2]
        refine ⟨by simp, ?_⟩
        show |(0 : ℝ) - 0| ≤ _
        simp

end

/-- **C64, cascaded sum.** If no more samples are added than announced, and at most `2^(e+1)` were announced, the relative error of the cascaded
accumulator (with respect to the sum of absolute values) is that of `e + 1` additions: it grows with the logarithm of the number of samples. -/
theorem cascaded_sum_rounded (fl : ℝ → ℝ) (u : ℝ) (hfl : Rounds fl u) (hu : 0 ≤ u) (nmbValues e : ℕ) (he : nmbValues ≤ 2 ^ (e + 1)) (initial : ℝ)
    (xs : List ℝ) (hne : xs ≠ []) (h : (xs.length + 1) / 2 ≤ (nmbValues + 1) / 2) :
    ∃ s, (Casc.new nmbValues (toFl fl initial)).addAll (xs.map (toFl fl)) = .ok s ∧
      |s.result.val - xs.sum| ≤ ((1 + u) ^ (e + 1) - 1) * absSum xs := by
  obtain ⟨b, hb, hbr⟩ := cascaded_sum_exact_partial nmbValues initial xs hne h
  obtain ⟨g, hg, hgr⟩ := cascaded_sum_exact_partial nmbValues |initial| (xs.map fun x => |x|) (by simpa using hne) (by simpa using h)
  have h0 : Sim u (Casc.new nmbValues (toFl fl initial)) (Casc.new nmbValues initial) (Casc.new nmbValues |initial|) := by
    refine ⟨⟨rfl, rfl⟩, ⟨rfl, rfl⟩, ?_, ?_, by simp [Casc.new]⟩
    · unfold Casc.new
      constructor <;> (dsimp only; split_ifs <;> simp)
    · intro i
      unfold Casc.new
      dsimp only
      generalize nmbValues / 2 + (if nmbValues % 2 > 0 then 1 else 0) = n
      by_cases hn : n > 0
      · simp only [if_pos hn]
        by_cases hi : 0 = i
        · subst hi
          rw [getD_set_self _ _ _ (by simpa using hn), getD_set_self _ _ _ (by simpa using hn), getD_set_self _ _ _ (by simpa using hn)]
          exact (Approx.zero u initial).mono hu (by omega)
        · rw [getD_set_ne _ _ _ _ hi, getD_set_ne _ _ _ _ hi, getD_set_ne _ _ _ _ hi]
          have hz : ∀ {M : Type} [Zero M], (List.replicate n (0 : M)).getD i 0 = 0 := by
            intro M _
            simp only [List.getD, List.getElem?_replicate]
            split_ifs <;> rfl
          rw [hz, hz]
          refine ⟨by simp, ?_⟩
          show |(0 : ℝ) - 0| ≤ _
          simp
      · simp only [if_neg hn]
        refine ⟨by simp, ?_⟩
        show |(0 : ℝ) - 0| ≤ _
        simp
  obtain ⟨a, ha, hs⟩ := sim_addAll hfl hu xs _ _ _ _ _ h0 hb hg
  refine ⟨a, ha, ?_⟩
  have hlen : a.partials.length ≤ 2 ^ e := by
    have hl : ∀ (ys : List ℝ) (p q : Casc ℝ), p.addAll ys = .ok q → q.partials.length = p.partials.length := by
      intro ys
      induction ys with
      | nil => intro p q hpq; cases hpq; rfl
      | cons y ys ih =>
        intro p q hpq
        simp only [Casc.addAll] at hpq
        by_cases hi : p.index < p.partials.length
        · cases hn : p.sumNext with
          | true =>
            rw [add_next p y hn hi] at hpq
            have := ih _ _ hpq
            simpa using this
          | false =>
            rw [add_first p y hn hi] at hpq
            have := ih _ _ hpq
            simpa using this
        · rw [add_ub p y hi] at hpq; cases hpq
    rw [hs.len.1, hl xs _ _ hb]
    have : (Casc.new nmbValues initial).partials.length = (nmbValues + 1) / 2 := by
      have e : nmbValues / 2 + (if nmbValues % 2 > 0 then 1 else 0) = (nmbValues + 1) / 2 := by split <;> omega
      simp only [Casc.new, e]
      split
      · simp
      · rename_i hh; simp at hh ⊢; omega
    rw [this]
    have e2 : 2 ^ (e + 1) = 2 * 2 ^ e := by rw [pow_succ]; ring
    omega
  have := (sim_result hfl hu a b g hs e hlen).2
  rw [hbr, hgr] at this
  exact this

/-- the assumptions are met by arithmetic that is not exact: every result is 1/128 too small. -/
example : Rounds (fun z => z * (1 - 1 / 128)) (1 / 128) ∧ (0 : ℝ) ≤ 1 / 128 ∧ (1 / 128 : ℝ) ≤ 1 / 100 ∧
    (([1] : List ℝ).length : ℝ) * (1 / 128) ≤ 1 / 100 := by
  refine ⟨?_, by norm_num, by norm_num, by norm_num⟩
  intro z
  have : z * (1 - 1 / 128) - z = -(1 / 128) * z := by ring
  rw [this, abs_mul]
  norm_num

end Rpwa.Acc
