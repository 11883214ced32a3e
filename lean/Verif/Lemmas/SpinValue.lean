import Verif.Lemmas.SpinStages
import Mathlib.Tactic.LinearCombination
/-!
# Values of the terms
-/
namespace Rpwa.SpinTensor
open Fraction CgBox Spec

/-! ### signs -/

def Sg (z : ℤ) : Prop := z = 0 ∨ z = 1 ∨ z = -1

theorem Sg.mul {a b : ℤ} (ha : Sg a) (hb : Sg b) : Sg (a * b) := by
  unfold Sg at *
  rcases ha with rfl | rfl | rfl <;> rcases hb with rfl | rfl | rfl <;> decide

theorem sg_pk (c : Bool) (x y : ℤ) : Sg (pk c x y) := by unfold pk Sg; split_ifs <;> simp
theorem sg_pin (x y : ℤ) : Sg (pin x y) := by unfold pin Sg; split_ifs <;> simp

theorem sg_pks (c : Bool) : ∀ u v : List ℤ, Sg (pks c u v)
  | [], _ => by simp [Sg]
  | _ :: _, [] => by simp [Sg, pks]
  | x :: u, y :: v => by rw [pks_cons]; exact (sg_pk c x y).mul (sg_pks c u v)

theorem sg_pins : ∀ u v : List ℤ, Sg (pins u v)
  | [], _ => by simp [Sg]
  | _ :: _, [] => by simp [Sg, pins]
  | x :: u, y :: v => by rw [pins_cons]; exact (sg_pin x y).mul (sg_pins u v)

theorem sg_left (x y u w : List ℤ) : Sg (left x y u w).1 := by
  unfold left Sg
  split
  · simp
  · exact (epsA_range _ _ _).1
  · exact (epsA_range _ _ _).1
  · exact (epsP_range _ _ _).1
  · exact (epsC_range _ _ _).1
  · simp

/-! ### conservation of helicity -/

theorem pks_false_ne : ∀ u v : List ℤ, u.length = v.length → pks false u v ≠ 0 → u.sum + v.sum = 0 ∧ u.count 0 = v.count 0
  | [], [] => by simp
  | [], _ :: _ => by simp
  | _ :: _, [] => by simp
  | x :: u, y :: v => by
    intro hl h
    rw [pks_cons] at h
    obtain ⟨h1, h2⟩ := pks_false_ne u v (by simpa using hl) (right_ne_zero_of_mul h)
    have hp := left_ne_zero_of_mul h
    have hxy : x + y = 0 := by
      by_contra hc; apply hp; unfold pk; rw [if_neg (by decide), if_neg hc]
    refine ⟨by rw [List.sum_cons, List.sum_cons]; omega, ?_⟩
    rw [List.count_cons, List.count_cons, h2]
    congr 1
    by_cases hx : x = 0
    · have hy : y = 0 := by omega
      simp [hx, hy]
    · have hy : y ≠ 0 := by omega
      simp [hx, hy]

theorem pks_true_ne : ∀ u v : List ℤ, u.length = v.length → pks true u v ≠ 0 → u = v
  | [], [] => by simp
  | [], _ :: _ => by simp
  | _ :: _, [] => by simp
  | x :: u, y :: v => by
    intro hl h
    rw [pks_cons] at h
    rw [pks_true_ne u v (by simpa using hl) (right_ne_zero_of_mul h)]
    have hp := left_ne_zero_of_mul h
    by_contra hc
    apply hp
    unfold pk
    rw [if_pos rfl, if_neg (fun e => hc (by rw [e]))]

/-- number of zeros that is left over -/
def odd (even : Bool) : ℕ := if even then 0 else 1

theorem epsA_ne {a b c : ℤ} (h : (epsA a b c).1 ≠ 0) : a + b - c = 0 ∧ [a].count 0 + [b].count 0 + [c].count 0 = 1 := by
  unfold epsA at h
  split_ifs at h with h1 h2 h3 h4 h5 h6
  all_goals first | (obtain ⟨rfl, rfl, rfl⟩ := h1; decide) | (obtain ⟨rfl, rfl, rfl⟩ := h2; decide) | (obtain ⟨rfl, rfl, rfl⟩ := h3; decide) | (obtain ⟨rfl, rfl, rfl⟩ := h4; decide) | (obtain ⟨rfl, rfl, rfl⟩ := h5; decide) | (obtain ⟨rfl, rfl, rfl⟩ := h6; decide) | exact absurd rfl h
theorem epsP_ne {a b c : ℤ} (h : (epsP a b c).1 ≠ 0) : a + b - c = 0 ∧ [a].count 0 + [b].count 0 + [c].count 0 = 1 := by
  unfold epsP at h
  split_ifs at h with h1 h2 h3 h4 h5 h6
  all_goals first | (obtain ⟨rfl, rfl, rfl⟩ := h1; decide) | (obtain ⟨rfl, rfl, rfl⟩ := h2; decide) | (obtain ⟨rfl, rfl, rfl⟩ := h3; decide) | (obtain ⟨rfl, rfl, rfl⟩ := h4; decide) | (obtain ⟨rfl, rfl, rfl⟩ := h5; decide) | (obtain ⟨rfl, rfl, rfl⟩ := h6; decide) | exact absurd rfl h
theorem epsC_ne {a b c : ℤ} (h : (epsC a b c).1 ≠ 0) : a + b + c = 0 ∧ [a].count 0 + [b].count 0 + [c].count 0 = 1 := by
  unfold epsC at h
  split_ifs at h with h1 h2 h3 h4 h5 h6
  all_goals first | (obtain ⟨rfl, rfl, rfl⟩ := h1; decide) | (obtain ⟨rfl, rfl, rfl⟩ := h2; decide) | (obtain ⟨rfl, rfl, rfl⟩ := h3; decide) | (obtain ⟨rfl, rfl, rfl⟩ := h4; decide) | (obtain ⟨rfl, rfl, rfl⟩ := h5; decide) | (obtain ⟨rfl, rfl, rfl⟩ := h6; decide) | exact absurd rfl h

theorem left_ne {even : Bool} {x y u w : List ℤ} (hs : Shape even x.length y.length u.length w.length) (h : (left x y u w).1 ≠ 0) :
    x.sum + y.sum + u.sum - w.sum = 0 ∧ x.count 0 + y.count 0 + u.count 0 + w.count 0 = odd even := by
  unfold left at h
  split at h
  · rcases hs with ⟨rfl, -⟩ | ⟨rfl, h0, -⟩
    · simp [odd]
    · simp at h0
  · obtain ⟨h1, h2⟩ := epsA_ne h
    rcases hs with ⟨rfl, h0⟩ | ⟨rfl, -⟩
    · simp at h0
    · refine ⟨by simp; omega, by simp only [List.count_nil, odd]; simpa using h2⟩
  · obtain ⟨h1, h2⟩ := epsA_ne h
    rcases hs with ⟨rfl, h0⟩ | ⟨rfl, -⟩
    · simp at h0
    · refine ⟨by simp; omega, by simp only [List.count_nil, odd]; simpa using h2⟩
  · obtain ⟨h1, h2⟩ := epsP_ne h
    rcases hs with ⟨rfl, h0⟩ | ⟨rfl, -⟩
    · simp at h0
    · refine ⟨by simp; omega, by simp only [List.count_nil, odd]; simpa using h2⟩
  · obtain ⟨h1, h2⟩ := epsC_ne h
    rcases hs with ⟨rfl, h0⟩ | ⟨rfl, -⟩
    · simp at h0
    · refine ⟨by simp; omega, by simp only [List.count_nil, odd]; simpa using h2⟩
  · exact absurd rfl h

theorem sum_split (n : ℕ) (l : List ℤ) : l.sum = (l.take n).sum + (l.drop n).sum := by
  rw [← List.sum_append, List.take_append_drop]
theorem count_split (n : ℕ) (l : List ℤ) : l.count 0 = (l.take n).count 0 + (l.drop n).count 0 := by
  rw [← List.count_append, List.take_append_drop]
theorem sum_rev (l : List ℤ) : l.reverse.sum = l.sum := List.sum_reverse l

/-- the numbers of contractions fit the spins -/
structure Fits (N : Nums) (even : Bool) (S1 S2 L J : ℕ) : Prop where
  o : N.i + N.co + N.po ≤ S1
  e : N.i + N.ce + N.pe ≤ S2
  c : N.co + N.ce + N.cp ≤ L
  p : N.po + N.pe + N.cp ≤ J
  left : Shape even (S1 - (N.i + N.co + N.po)) (S2 - (N.i + N.ce + N.pe)) (L - (N.co + N.ce + N.cp)) (J - (N.po + N.pe + N.cp))

variable {N : Nums} {even : Bool} {S1 S2 L J : ℕ}

theorem Fits.shape (hf : Fits N even S1 S2 L J) {o e c p : List ℤ} (ho : o.length = S1) (he : e.length = S2) (hc : c.length = L) (hp : p.length = J) :
    Shape even (N.x3 o).length (N.y3 e).length (N.u2 c).length (N.w2 p).length := by
  have e1 : (N.x3 o).length = S1 - (N.i + N.co + N.po) := by simp only [Nums.x3, Nums.x2, Nums.x1, List.length_drop, List.length_reverse, ho]; omega
  have e2 : (N.y3 e).length = S2 - (N.i + N.ce + N.pe) := by simp only [Nums.y3, Nums.y2, Nums.y1, List.length_drop, List.length_reverse, he]; omega
  have e3 : (N.u2 c).length = L - (N.co + N.ce + N.cp) := by simp only [Nums.u2, Nums.u1, List.length_drop, List.length_reverse, hc]; omega
  have e4 : (N.w2 p).length = J - (N.po + N.pe + N.cp) := by simp only [Nums.w2, Nums.w1, List.length_drop, List.length_reverse, hp]; omega
  rw [e1, e2, e3, e4]; exact hf.left

/-- where all but the inner contractions are not zero, the helicities of the inner indices add up to zero and the number of zeros of the
others is known. -/
theorem conserved (hf : Fits N even S1 S2 L J) {o e c p : List ℤ} (ho : o.length = S1) (he : e.length = S2) (hc : c.length = L) (hp : p.length = J)
    (h3 : N.s3 o e c ≠ 0) (h4 : N.s4 o e p ≠ 0) (h5 : N.s5 o e c p ≠ 0) :
    o.sum + e.sum + c.sum - p.sum = (o.reverse.take N.i).sum + (e.reverse.take N.i).sum ∧
    ∃ k, o.count 0 + e.count 0 + c.count 0 + p.count 0 = (o.reverse.take N.i).count 0 + (e.reverse.take N.i).count 0 + 2 * k + odd even := by
  have h3a := pks_false_ne _ _ (by simp only [Nums.x1, List.length_take, List.length_drop, List.length_reverse, ho, hc]; have := hf.o; have := hf.c; omega) (left_ne_zero_of_mul h3)
  have h3b := pks_false_ne _ _ (by simp only [Nums.y1, List.length_take, List.length_drop, List.length_reverse, he, hc]; have := hf.e; have := hf.c; omega) (right_ne_zero_of_mul h3)
  have h4a := pks_true_ne _ _ (by simp only [Nums.x2, Nums.x1, List.length_take, List.length_drop, List.length_reverse, ho, hp]; have := hf.o; have := hf.p; omega) (left_ne_zero_of_mul h4)
  have h4b := pks_true_ne _ _ (by simp only [Nums.y2, Nums.y1, List.length_take, List.length_drop, List.length_reverse, he, hp]; have := hf.e; have := hf.p; omega) (right_ne_zero_of_mul h4)
  have h5a := pks_true_ne _ _ (by simp only [Nums.u1, Nums.w1, List.length_take, List.length_drop, List.length_reverse, hc, hp]; have := hf.c; have := hf.p; omega) (left_ne_zero_of_mul h5)
  have h5b := left_ne (hf.shape ho he hc hp) (right_ne_zero_of_mul h5)
  have so : o.sum = _ := (sum_rev o).symm.trans ((sum_split N.i o.reverse).trans (congrArg _ ((sum_split N.co (N.x1 o)).trans (congrArg _ (sum_split N.po (N.x2 o))))))
  have se : e.sum = _ := (sum_rev e).symm.trans ((sum_split N.i e.reverse).trans (congrArg _ ((sum_split N.ce (N.y1 e)).trans (congrArg _ (sum_split N.pe (N.y2 e))))))
  have sc : c.sum = (c.reverse.take N.co).sum + (((c.reverse.drop N.co).take N.ce).sum + (((N.u1 c).take N.cp).sum + (N.u2 c).sum)) := by
    rw [← sum_rev c, sum_split N.co c.reverse, sum_split N.ce (c.reverse.drop N.co), List.drop_drop]
    congr 2
    exact sum_split N.cp (N.u1 c)
  have sp : p.sum = (p.reverse.take N.po).sum + (((p.reverse.drop N.po).take N.pe).sum + (((N.w1 p).take N.cp).sum + (N.w2 p).sum)) := by
    rw [← sum_rev p, sum_split N.po p.reverse, sum_split N.pe (p.reverse.drop N.po), List.drop_drop]
    congr 2
    exact sum_split N.cp (N.w1 p)
  have co : o.count 0 = (o.reverse.take N.i).count 0 + (((N.x1 o).take N.co).count 0 + (((N.x2 o).take N.po).count 0 + (N.x3 o).count 0)) := by
    rw [← List.count_reverse, count_split N.i o.reverse]; congr 1
    exact (count_split N.co (N.x1 o)).trans (congrArg _ (count_split N.po (N.x2 o)))
  have ce : e.count 0 = (e.reverse.take N.i).count 0 + (((N.y1 e).take N.ce).count 0 + (((N.y2 e).take N.pe).count 0 + (N.y3 e).count 0)) := by
    rw [← List.count_reverse, count_split N.i e.reverse]; congr 1
    exact (count_split N.ce (N.y1 e)).trans (congrArg _ (count_split N.pe (N.y2 e)))
  have cc : c.count 0 = (c.reverse.take N.co).count 0 + (((c.reverse.drop N.co).take N.ce).count 0 + (((N.u1 c).take N.cp).count 0 + (N.u2 c).count 0)) := by
    rw [← List.count_reverse, count_split N.co c.reverse, count_split N.ce (c.reverse.drop N.co), List.drop_drop]
    congr 2
    exact count_split N.cp (N.u1 c)
  have cpp : p.count 0 = (p.reverse.take N.po).count 0 + (((p.reverse.drop N.po).take N.pe).count 0 + (((N.w1 p).take N.cp).count 0 + (N.w2 p).count 0)) := by
    rw [← List.count_reverse, count_split N.po p.reverse, count_split N.pe (p.reverse.drop N.po), List.drop_drop]
    congr 2
    exact count_split N.cp (N.w1 p)
  have h4a' := congrArg List.sum h4a
  have h4b' := congrArg List.sum h4b
  have h5a' := congrArg List.sum h5a
  have h4a'' := congrArg (List.count 0) h4a
  have h4b'' := congrArg (List.count 0) h4b
  have h5a'' := congrArg (List.count 0) h5a
  have hx3 : (N.x2 o).drop N.po = N.x3 o := rfl
  have hy3 : (N.y2 e).drop N.pe = N.y3 e := rfl
  rw [hx3] at so
  rw [hy3] at se
  refine ⟨by omega, ((N.x1 o).take N.co).count 0 + ((N.y1 e).take N.ce).count 0 + ((N.x2 o).take N.po).count 0 + ((N.y2 e).take N.pe).count 0 +
    ((N.w1 p).take N.cp).count 0, by omega⟩

/-! ### the inner contraction -/

theorem pk_false (x y : ℤ) : pk false x y = if x + y = 0 then (if x = 0 then 1 else -1) else 0 := rfl
theorem pk_true (x y : ℤ) : pk true x y = if x = y then 1 else 0 := rfl

theorem pin_pk {x y : ℤ} (h : x + y = 0) : pin x y = pk false x y := by
  unfold pin
  rw [pk_false, if_pos h]
  by_cases hx : x = 0
  · rw [if_neg (fun c => c.2 hx), if_pos hx]
  · rw [if_pos ⟨h, hx⟩, if_neg hx]

theorem pk_zero {x y : ℤ} (h : x + y ≠ 0) : pk false x y = 0 := by
  unfold pk; rw [if_neg (by decide), if_neg h]

/-- up to two inner contractions: what the program takes is right where the helicities add up to zero. -/
theorem inner_masked {N : Nums} (hi : N.i ≤ 2) {o e : List ℤ} (ho : N.i ≤ o.length) (he : N.i ≤ e.length)
    (hs : (o.reverse.take N.i).sum + (e.reverse.take N.i).sum = 0) :
    (if N.kept o e = true then N.s2 o e else 0) = pks false (o.reverse.take N.i) (e.reverse.take N.i) := by
  unfold Nums.kept Nums.s2
  have ho' : N.i ≤ o.reverse.length := by simpa using ho
  have he' : N.i ≤ e.reverse.length := by simpa using he
  generalize o.reverse = x at *
  generalize e.reverse = y at *
  generalize N.i = n at *
  match n, x, y, ho', he', hs with
  | 0, _, _, _, _, _ => simp
  | 1, a :: x, b :: y, _, _, hs =>
    simp at hs
    simp [lastOk, hs, pin_pk hs]
  | 2, a :: a' :: x, b :: b' :: y, _, _, hs =>
    simp at hs
    by_cases hb : a' + b' = 0
    · have hb2 : a + b = 0 := by omega
      simp [lastOk, hb, pin_pk hb, pin_pk hb2]
    · simp [lastOk, hb, pk_zero hb]
  | n + 3, _, _, _, _, _ => omega

/-! ### scalar products -/

theorem contract_vec (a b : ℝ) : ∀ u v : List ℤ, (∀ m ∈ u, Hel m) → (∀ m ∈ v, Hel m) →
    contract (vec a) (vec b) u v = (((pks false u v : ℤ) : ℝ) * (a * b) ^ cnt u v : ℝ)
  | [], _ => by simp [contract]
  | _ :: _, [] => by simp [contract, pks, cnt]
  | x :: u, y :: v => by
    intro hu hv
    have ih := contract_vec a b u v (fun m hm => hu m (by simp [hm])) (fun m hm => hv m (by simp [hm]))
    have hx := hu x (by simp)
    have hy := hv y (by simp)
    unfold contract at ih ⊢
    rw [List.zipWith_cons_cons, List.prod_cons, ih, dot_vec a b hx hy, pks_cons, cnt_cons, ← Complex.ofReal_mul]
    congr 1
    unfold kc
    rw [pk_false]
    by_cases h : x + y = 0
    · rw [if_neg (not_not.mpr h), if_pos h]
      by_cases h0 : x = 0
      · rw [if_pos h0, if_pos h0, if_pos ⟨h0, by omega⟩, pow_add]; push_cast; ring
      · rw [if_neg h0, if_neg h0, if_neg (fun c => h0 c.1)]; push_cast; ring
    · rw [if_pos h, if_neg h]; simp

theorem contract_conj (b : ℝ) : ∀ u v : List ℤ, (∀ m ∈ u, Hel m) → (∀ m ∈ v, Hel m) →
    contract vecConj (vec b) u v = (((pks true u v : ℤ) : ℝ) * b ^ cnt u v : ℝ)
  | [], _ => by simp [contract]
  | _ :: _, [] => by simp [contract, pks, cnt]
  | x :: u, y :: v => by
    intro hu hv
    have ih := contract_conj b u v (fun m hm => hu m (by simp [hm])) (fun m hm => hv m (by simp [hm]))
    have hx := hu x (by simp)
    have hy := hv y (by simp)
    unfold contract at ih ⊢
    rw [List.zipWith_cons_cons, List.prod_cons, ih, dot_conj b hx hy, pks_cons, cnt_cons, ← Complex.ofReal_mul]
    congr 1
    unfold kp
    rw [pk_true]
    by_cases h : x = y
    · rw [if_neg (by simpa using h), if_pos h]
      by_cases h0 : x = 0
      · rw [if_pos h0, if_pos ⟨h0, by omega⟩, pow_add]; push_cast; ring
      · rw [if_neg h0, if_neg (fun c => h0 c.1)]; push_cast; ring
    · rw [if_pos h, if_neg h]; simp

theorem contract_one (u v : List ℤ) (hu : ∀ m ∈ u, Hel m) (hv : ∀ m ∈ v, Hel m) :
    contract (vec 1) vecConj u v = (((pks true u v : ℤ) : ℝ) : ℂ) := by
  have h := contract_conj 1 v u hv hu
  rw [one_pow, mul_one] at h
  have h1 : contract (vec 1) vecConj u v = contract vecConj (vec 1) v u := by
    unfold contract
    rw [List.zipWith_comm]
    congr 2
    funext x y
    exact dot_comm _ _
  have h2 : pks true u v = pks true v u := by
    unfold pks
    rw [List.zipWith_comm]
    congr 2
    funext x y
    unfold pk
    simp [eq_comm]
  rw [h1, h2, h]

/-- `i` for three vectors left over -/
noncomputable def unit (even : Bool) : ℂ := if even then 1 else Complex.I

theorem leftOver_eq {even : Bool} {γs γσ : ℝ} {x y u w : List ℤ} (hs : Shape even x.length y.length u.length w.length)
    (hx : ∀ m ∈ x, Hel m) (hy : ∀ m ∈ y, Hel m) (hu : ∀ m ∈ u, Hel m) (hw : ∀ m ∈ w, Hel m) :
    leftOver (x.map (vec γs) ++ y.map (vec γσ) ++ u.map (vec 1) ++ w.map vecConj) =
      unit even * ((((left x y u w).1 : ℤ) : ℝ) * γs ^ (left x y u w).2.1 * γσ ^ (left x y u w).2.2 : ℝ) := by
  rcases hs with ⟨rfl, g1, g2, g3, g4⟩ | ⟨rfl, g0, g1, g2, g3, g4⟩
  · obtain rfl := List.length_eq_zero_iff.mp g1
    obtain rfl := List.length_eq_zero_iff.mp g2
    obtain rfl := List.length_eq_zero_iff.mp g3
    obtain rfl := List.length_eq_zero_iff.mp g4
    simp [leftOver, left, unit]
  · match x, y, u, w, g0, g1, g2, g3, g4 with
    | [], [b], [c], [d], _, _, _, _, _ =>
      refine (triple_A γσ (hy b (by simp)) (hu c (by simp)) (hw d (by simp))).trans ?_
      simp [left, unit]
    | [a], [], [c], [d], _, _, _, _, _ =>
      refine (triple_A γs (hx a (by simp)) (hu c (by simp)) (hw d (by simp))).trans ?_
      simp [left, unit]
    | [a], [b], [], [d], _, _, _, _, _ =>
      refine (triple_P γs γσ (hx a (by simp)) (hy b (by simp)) (hw d (by simp))).trans ?_
      simp [left, unit]
    | [a], [b], [c], [], _, _, _, _, _ =>
      refine (triple_C γs γσ (hx a (by simp)) (hy b (by simp)) (hu c (by simp))).trans ?_
      simp [left, unit]
    | _ :: _ :: _, _, _, _, _, h, _, _, _ => simp at h
    | _, _ :: _ :: _, _, _, _, _, h, _, _ => simp at h
    | _, _, _ :: _ :: _, _, _, _, _, h, _ => simp at h
    | _, _, _, _ :: _ :: _, _, _, _, _, h => simp at h
    | [], [], [], [], h, _, _, _, _ => simp at h
    | [_], [], [], [], h, _, _, _, _ => simp at h
    | [], [_], [], [], h, _, _, _, _ => simp at h
    | [], [], [_], [], h, _, _, _, _ => simp at h
    | [], [], [], [_], h, _, _, _, _ => simp at h
    | [_], [_], [], [], h, _, _, _, _ => simp at h
    | [_], [], [_], [], h, _, _, _, _ => simp at h
    | [_], [], [], [_], h, _, _, _, _ => simp at h
    | [], [_], [_], [], h, _, _, _, _ => simp at h
    | [], [_], [], [_], h, _, _, _, _ => simp at h
    | [], [], [_], [_], h, _, _, _, _ => simp at h
    | [_], [_], [_], [_], h, _, _, _, _ => simp at h

/-- the sign of the contraction -/
def Nums.sgn (N : Nums) (o e c p : List ℤ) : ℤ := pks false (o.reverse.take N.i) (e.reverse.take N.i) * N.s3 o e c * N.s4 o e p * N.s5 o e c p

theorem kernel_eq (hf : Fits N even S1 S2 L J) {o e c p : List ℤ} (ho : o ∈ hels S1) (he : e ∈ hels S2) (hc : c ∈ hels L) (hp : p ∈ hels J)
    (γs γσ : ℝ) : kernel γs γσ N.i N.co N.ce N.po N.pe N.cp o e c p =
      unit even * ((N.sgn o e c p : ℝ) * γs ^ N.ea o e c p * γσ ^ N.eb o e c p : ℝ) := by
  rw [mem_hels] at ho he hc hp
  have vo : ∀ m ∈ o.reverse, Hel m := fun m hm => ho.2 m (by simpa using hm)
  have ve : ∀ m ∈ e.reverse, Hel m := fun m hm => he.2 m (by simpa using hm)
  have vc : ∀ m ∈ c.reverse, Hel m := fun m hm => hc.2 m (by simpa using hm)
  have vp : ∀ m ∈ p.reverse, Hel m := fun m hm => hp.2 m (by simpa using hm)
  have T : ∀ {l : List ℤ}, (∀ m ∈ l, Hel m) → ∀ n, ∀ m ∈ l.take n, Hel m := fun h n m hm => h m (List.mem_of_mem_take hm)
  have D : ∀ {l : List ℤ}, (∀ m ∈ l, Hel m) → ∀ n, ∀ m ∈ l.drop n, Hel m := fun h n m hm => h m (List.mem_of_mem_drop hm)
  have hl := leftOver_eq (even := even) (γs := γs) (γσ := γσ) (hf.shape ho.1 he.1 hc.1 hp.1) (D (D (D vo _) _) _) (D (D (D ve _) _) _) (D (D vc _) _) (D (D vp _) _)
  have ex : N.x3 o = o.reverse.drop (N.i + N.co + N.po) := by simp only [Nums.x3, Nums.x2, Nums.x1, List.drop_drop]
  have ey : N.y3 e = e.reverse.drop (N.i + N.ce + N.pe) := by simp only [Nums.y3, Nums.y2, Nums.y1, List.drop_drop]
  have eu : N.u2 c = c.reverse.drop (N.co + N.ce + N.cp) := by simp only [Nums.u2, Nums.u1, List.drop_drop]
  have ew : N.w2 p = p.reverse.drop (N.po + N.pe + N.cp) := by simp only [Nums.w2, Nums.w1, List.drop_drop]
  have ex2 : N.x2 o = o.reverse.drop (N.i + N.co) := by simp only [Nums.x2, Nums.x1, List.drop_drop]
  have ey2 : N.y2 e = e.reverse.drop (N.i + N.ce) := by simp only [Nums.y2, Nums.y1, List.drop_drop]
  unfold kernel
  dsimp only
  rw [contract_vec _ _ _ _ (T vo _) (T ve _), contract_vec _ _ _ _ (T vc _) (T (D vo _) _), contract_vec _ _ _ _ (T (D vc _) _) (T (D ve _) _),
    contract_conj _ _ _ (T vp _) (T (D vo _) _), contract_conj _ _ _ (T (D vp _) _) (T (D ve _) _), contract_one _ _ (T (D vc _) _) (T (D vp _) _),
    ← ex, ← ey, ← eu, ← ew, hl]
  have e5 : ∀ z : ℂ, unit even * z = z * unit even := fun z => mul_comm _ _
  rw [e5, e5, ← mul_assoc]
  congr 1
  rw [← Complex.ofReal_mul, ← Complex.ofReal_mul, ← Complex.ofReal_mul, ← Complex.ofReal_mul, ← Complex.ofReal_mul, ← Complex.ofReal_mul]
  congr 1
  unfold Nums.sgn Nums.ea Nums.eb Nums.s3 Nums.s4 Nums.s5 Nums.a2 Nums.a3 Nums.b3 Nums.a4 Nums.b4 Nums.lf
  rw [← ex2, ← ey2]
  simp only [Nums.x1, Nums.y1, Nums.u1, Nums.w1, one_mul, mul_pow, pow_add]
  push_cast
  ring

/-! ### prefactors -/

/-- the common factor of the prefactors -/
def Kf (S1 S2 L J : ℕ) (S δ : ℤ) (even : Bool) : ℚ :=
  2 ^ odd even * (Dl (2 * S1) (2 * S2) (S1 + S2 - S).toNat *
    fc ((S1 : ℤ) + S2 + δ - (S1 + S2 - S).toNat) * fc ((S1 : ℤ) + S2 - δ - (S1 + S2 - S).toNat) / ((2 * S1).factorial * (2 * S2).factorial)) *
    (L.factorial * L.factorial / (2 * L).factorial * waveSq L (List.replicate L 0)) *
    ((J + δ).toNat.factorial * (J - δ).toNat.factorial / (2 * J).factorial)

theorem Kf_pos {S : ℤ} (h : CgBox.Spec.Triangle S S1 S2) (δ : ℤ) : 0 < Kf S1 S2 L J S δ even := by
  obtain ⟨ha, hb, hc⟩ := h
  unfold Kf
  have h1 := Dl_pos (n1 := 2 * S1) (n2 := 2 * S2) (a := (S1 + S2 - S).toNat) (by omega) (by omega)
  have h2 := fc_pos ((S1 : ℤ) + S2 + δ - (S1 + S2 - S).toNat)
  have h3 := fc_pos ((S1 : ℤ) + S2 - δ - (S1 + S2 - S).toNat)
  have h4 := waveSq_pos L (List.replicate L 0)
  positivity

/-- square of the product of all components, with sign -/
def Qf (S1 S2 L J : ℕ) (S : ℤ) (o e c p : List ℤ) : ℚ := q1 S1 S2 S o e * orbSq L c * waveSq J p

theorem q5_eq (N : Nums) (S1 S2 L J : ℕ) (S : ℤ) (o e c p : List ℤ) :
    N.q5 S1 S2 L J S o e c p = ((N.s2 o e * N.s3 o e c * N.s4 o e p * N.s5 o e c p : ℤ) : ℚ) * Qf S1 S2 L J S o e c p := by
  unfold Nums.q5 Nums.q4 Nums.q3 Nums.q2 Qf; push_cast; ring

theorem qf_algebra {A1 A2 A3 A4 B1 B2 C1 C2 C3 D G W F1 F2 F3 F4 zo ze zc zp t w : ℚ} (hz : zo * ze * zc * zp = t ^ 2 * w) :
    zo * A1 * A2 / F1 * (G * (A1 * A2 * A3 * A4 * B1 * B2) * D * (ze * A3 * A4 / F2)) * (zc * C1 * C1 / F3 * W) * (zp * C2 * C3 / F4) =
      G * (A1 * A2 * A3 * A4 * t) ^ 2 * (w * (D * B1 * B2 / (F1 * F2)) * (C1 * C1 / F3 * W) * (C2 * C3 / F4)) := by
  linear_combination (A1 ^ 2 * A2 ^ 2 * A3 ^ 2 * A4 ^ 2 * B1 * B2 * C1 ^ 2 * C2 * C3 * D * G * W * F1⁻¹ * F2⁻¹ * F3⁻¹ * F4⁻¹) * hz

theorem Qf_root {S δ : ℤ} (h : CgBox.Spec.Triangle S S1 S2) {o e c p : List ℤ} (ho : o ∈ hels S1) (he : e ∈ hels S2)
    (hoe : o.sum + e.sum = δ) (hcs : c.sum = 0) (hps : p.sum = δ) (k : ℕ) (hk : o.count 0 + e.count 0 + c.count 0 + p.count 0 = 2 * k + odd even) :
    ∃ r, Qf S1 S2 L J S o e c p = ssq r * Kf S1 S2 L J S δ even := by
  obtain ⟨ha, hb, hc⟩ := h
  have bo := sum_bound ho
  have be := sum_bound he
  refine ⟨gs (2 * S1) (2 * S2) (S1 + S2 - S).toNat (S1 + o.sum).toNat (S2 + e.sum).toNat *
    (fc (S1 + o.sum) * fc (S1 - o.sum) * fc (S2 + e.sum) * fc (S2 - e.sum) * 2 ^ k), ?_⟩
  have e1 : ((S1 + o.sum).toNat : ℤ) = S1 + o.sum := Int.toNat_of_nonneg (by omega)
  have e2 : ((S2 + e.sum).toNat : ℤ) = S2 + e.sum := Int.toNat_of_nonneg (by omega)
  have hA : 0 ≤ fc (S1 + o.sum) * fc (S1 - o.sum) * fc (S2 + e.sum) * fc (S2 - e.sum) * 2 ^ k := by
    have := fc_pos (S1 + o.sum); have := fc_pos (S1 - o.sum); have := fc_pos (S2 + e.sum); have := fc_pos (S2 - e.sum); positivity
  rw [ssq_mul, ssq_nonneg hA]
  have hz : (2 : ℚ) ^ o.count 0 * 2 ^ e.count 0 * 2 ^ c.count 0 * 2 ^ p.count 0 = (2 ^ k) ^ 2 * 2 ^ odd even := by
    rw [← pow_add, ← pow_add, ← pow_add, hk, pow_add, ← pow_mul, mul_comm k 2]
  unfold Qf q1 Kf orbSq Cv Pf Wt
  rw [if_pos hcs]
  generalize ssq (gs (2 * S1) (2 * S2) (S1 + S2 - S).toNat (S1 + o.sum).toNat (S2 + e.sum).toNat) = G
  generalize Dl (2 * S1) (2 * S2) (S1 + S2 - S).toNat = D
  rw [e1, e2]
  have f1 : ((2 * S1 : ℕ) : ℤ) - (S1 + o.sum) = S1 - o.sum := by push_cast; ring
  have f2 : ((2 * S2 : ℕ) : ℤ) - (S2 + e.sum) = S2 - e.sum := by push_cast; ring
  have f3 : (S1 : ℤ) + o.sum + (S2 + e.sum) - (S1 + S2 - S).toNat = S1 + S2 + δ - (S1 + S2 - S).toNat := by rw [← hoe]; ring
  have f4 : ((2 * S1 : ℕ) : ℤ) + ((2 * S2 : ℕ) : ℤ) - (S1 + S2 - S).toNat - (S1 + o.sum) - (S2 + e.sum) = S1 + S2 - δ - (S1 + S2 - S).toNat := by
    rw [← hoe]; push_cast; ring
  rw [f1, f2, f3, f4]
  generalize waveSq L (List.replicate L 0) = W
  unfold waveSq
  rw [hcs, hps]
  have g1 : (((S1 : ℤ) + o.sum).toNat.factorial : ℚ) = fc (S1 + o.sum) := rfl
  have g2 : (((S1 : ℤ) - o.sum).toNat.factorial : ℚ) = fc (S1 - o.sum) := rfl
  have g3 : (((S2 : ℤ) + e.sum).toNat.factorial : ℚ) = fc (S2 + e.sum) := rfl
  have g4 : (((S2 : ℤ) - e.sum).toNat.factorial : ℚ) = fc (S2 - e.sum) := rfl
  have g5 : ((L : ℤ) + 0).toNat = L := by omega
  have g6 : ((L : ℤ) - 0).toNat = L := by omega
  rw [g1, g2, g3, g4, g5, g6]
  exact qf_algebra hz

theorem ssqrt_mul' (x y : ℝ) : ssqrt (x * y) = ssqrt x * ssqrt y := by
  unfold ssqrt
  rw [sign_mul, abs_mul, Real.sqrt_mul (abs_nonneg x)]; simp; ring

theorem ssqrt_nonneg {x : ℝ} (h : 0 ≤ x) : ssqrt x = Real.sqrt x := by
  unfold ssqrt
  rcases h.eq_or_lt with h' | h'
  · rw [← h']; simp
  · rw [sign_pos h', abs_of_pos h']; simp

theorem ssqrt_sg {z : ℤ} (h : Sg z) : ssqrt (z : ℝ) = z := by
  unfold ssqrt
  rcases h with rfl | rfl | rfl <;> simp

theorem ssqrt_abs (x : ℝ) : ssqrt (x * |x|) = x := by
  unfold ssqrt
  rcases lt_trichotomy x 0 with h | h | h
  · rw [sign_neg (mul_neg_of_neg_of_pos h (abs_pos.mpr h.ne)), abs_mul, abs_abs, Real.sqrt_mul_self (abs_nonneg _), abs_of_neg h]; simp
  · subst h; simp
  · rw [sign_pos (mul_pos h (abs_pos.mpr h.ne')), abs_mul, abs_abs, Real.sqrt_mul_self (abs_nonneg _), abs_of_pos h]; simp

theorem Qf_value {S : ℤ} (h : CgBox.Spec.Triangle S S1 S2) {o e c p : List ℤ} (ho : o ∈ hels S1) (he : e ∈ hels S2) :
    ssqrt (Qf S1 S2 L J S o e c p : ℝ) =
      wave S1 o * wave S2 e * CgBox.Spec.coefficient S S1 o.sum S2 e.sum * orbital L c * wave J p := by
  obtain ⟨ha, hb, hc⟩ := h
  have bo := sum_bound ho
  have be := sum_bound he
  have hC : ssqrt (Cv (2 * S1) (2 * S2) (S1 + S2 - S).toNat (S1 + o.sum).toNat (S2 + e.sum).toNat : ℝ) =
      CgBox.Spec.coefficient S S1 o.sum S2 e.sum := by
    rw [Cv_racah (by omega) (by omega) _ _ (by omega) (by omega), ssqrt_abs]
    unfold CgBox.Spec.coefficient
    congr 1 <;> push_cast <;> omega
  have hO : ssqrt (orbSq L c : ℝ) = orbital L c := by
    unfold orbSq orbital
    by_cases hs : c.sum = 0
    · rw [if_pos hs, if_pos hs, Rat.cast_mul, ssqrt_mul', ssqrt_nonneg (by exact_mod_cast (waveSq_pos L c).le),
        ssqrt_nonneg (by exact_mod_cast (waveSq_pos L _).le), wave_eq, wave_eq]
    · rw [if_neg hs, if_neg hs]; simp [ssqrt]
  unfold Qf q1
  push_cast
  rw [ssqrt_mul', ssqrt_mul', ssqrt_mul', ssqrt_mul', hC, hO, ssqrt_nonneg (by exact_mod_cast (waveSq_pos S1 o).le),
    ssqrt_nonneg (by exact_mod_cast (waveSq_pos S2 e).le), ssqrt_nonneg (by exact_mod_cast (waveSq_pos J p).le), ← wave_eq, ← wave_eq, ← wave_eq]
  ring

theorem sg_total (N : Nums) (o e c p : List ℤ) : Sg (N.s2 o e * N.s3 o e c * N.s4 o e p * N.s5 o e c p) :=
  (((sg_pins _ _).mul ((sg_pks _ _ _).mul (sg_pks _ _ _))).mul ((sg_pks _ _ _).mul (sg_pks _ _ _))).mul ((sg_pks _ _ _).mul (sg_left _ _ _ _))

theorem ssq_sg {z : ℤ} (h : Sg z) : ssq (z : ℚ) = z := by
  unfold ssq; rcases h with rfl | rfl | rfl <;> simp

end Rpwa.SpinTensor
