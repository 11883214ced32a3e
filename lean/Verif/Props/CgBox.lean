import Verif.Lemmas.CgRacah
import Verif.Spec.CgBox
import Verif.Props.Clebsch
/-!
# C79: tables of Clebsch-Gordan coefficients of the relativistic corrections
-/
namespace Rpwa.CgBox
open Finset Fraction Clebsch Spec

theorem right_of {J J1 J2 : ℤ} (h : Triangle J J1 J2) : ∃ t, clebschGordan (2 * J) (2 * J1) (2 * J2) = .ok t ∧ Right J J1 J2 t := by
  obtain ⟨ha, hb, hc⟩ := h
  obtain ⟨n1, hn1⟩ := Int.eq_ofNat_of_zero_le (show 0 ≤ 2 * J1 by omega)
  obtain ⟨n2, hn2⟩ := Int.eq_ofNat_of_zero_le (show 0 ≤ 2 * J2 by omega)
  obtain ⟨a, hA⟩ := Int.eq_ofNat_of_zero_le (show 0 ≤ J1 + J2 - J by omega)
  obtain ⟨t, h1, h2⟩ := clebschGordan_ok (n1 := n1) (n2 := n2) (a := a) (by omega) (by omega)
  have e : 2 * J = (n1 : ℤ) + n2 - 2 * a := by omega
  refine ⟨t, by rw [e, hn1, hn2]; exact h1, ?_, fun m1 m2 hm1 hm2 => ?_⟩
  · rw [h2.len, hn1, hn2]; push_cast; ring
  · rw [abs_le] at hm1 hm2
    obtain ⟨p, hp⟩ := Int.eq_ofNat_of_zero_le (show 0 ≤ J1 + m1 by omega)
    obtain ⟨q, hq⟩ := Int.eq_ofNat_of_zero_le (show 0 ≤ J2 + m2 by omega)
    have hi : cgIndex J1 m1 J2 m2 = (ix n2 p q : ℕ) := by
      unfold cgIndex ix
      rw [hp, hn2]; push_cast; omega
    have hlt := ix_lt (n1 := n1) (n2 := n2) (p := p) (q := q) (by omega) (by omega)
    rw [← h2.len] at hlt
    refine ⟨by omega, t[ix n2 p q], by rw [hi, Int.toNat_natCast]; exact List.getElem?_eq_getElem hlt, ?_⟩
    have hv := h2.val _ _ (List.getElem?_eq_getElem hlt)
    rw [ix_div (by omega), ix_mod (by omega)] at hv
    rw [hv.dval_eq, Cv_racah (by omega) (by omega) p q (by omega) (by omega)]
    unfold coefficient
    rw [show (2 * (p : ℤ) - n1) = 2 * m1 by omega, show (2 * (q : ℤ) - n2) = 2 * m2 by omega, ← e,
      show (2 * (p : ℤ) + 2 * q - n1 - n2) = 2 * (m1 + m2) by omega, hn1, hn2]

/-- every table in the box is what a calculation gives -/
def Good (b : Box) : Prop := ∀ J J1 J2 t, b.lookup (J, J1, J2) = some t → clebschGordan (2 * J) (2 * J1) (2 * J2) = .ok t

theorem getCG_good {b : Box} (hb : Good b) {J J1 J2 : ℤ} {t : List Frac} (ht : clebschGordan (2 * J) (2 * J1) (2 * J2) = .ok t) :
    ∃ b', getCG b J J1 J2 = .ok (b', t) ∧ Good b' := by
  unfold getCG
  cases hl : b.lookup (J, J1, J2) with
  | some u =>
    have := hb _ _ _ _ hl
    rw [ht] at this
    cases this
    exact ⟨b, rfl, hb⟩
  | none =>
    refine ⟨((J, J1, J2), t) :: b, ?_, ?_⟩
    · dsimp only; rw [ht]; rfl
    · intro K K1 K2 u hu
      rw [List.lookup_cons] at hu
      by_cases hk : (K, K1, K2) = (J, J1, J2)
      · rw [beq_iff_eq.mpr hk] at hu
        cases hu
        cases hk
        exact ht
      · rw [beq_eq_false_iff_ne.mpr hk] at hu
        exact hb _ _ _ _ hu

/-- C79: whatever couplings were requested before (each with `|J1-J2| ≤ J ≤ J1+J2`), every request is answered, and every
answer is a table with all the coefficients at their places: the squares with the signs. -/
theorem tables_right (qs : List (ℤ × ℤ × ℤ)) (h : ∀ q ∈ qs, Triangle q.1 q.2.1 q.2.2) :
    ∃ b ts, requests qs = .ok (b, ts) ∧
      List.Forall₂ (fun q t => Right q.1 q.2.1 q.2.2 t) qs ts := by
  have key : ∀ (l : List (ℤ × ℤ × ℤ)) (b : Box) (ts : List (List Frac)), Good b → (∀ q ∈ l, Triangle q.1 q.2.1 q.2.2) →
      ∃ b' us, l.foldlM (fun s q => do
          let r ← getCG s.1 q.1 q.2.1 q.2.2
          return (r.1, s.2 ++ [r.2])) (b, ts) = .ok (b', ts ++ us) ∧
        List.Forall₂ (fun q t => Right q.1 q.2.1 q.2.2 t) l us := by
    intro l
    induction l with
    | nil => intro b ts _ _; exact ⟨b, [], by rw [List.append_nil]; rfl, .nil⟩
    | cons q l ih =>
      intro b ts hb hq
      obtain ⟨t, h1, h2⟩ := right_of (hq q (by simp))
      obtain ⟨b', h3, h4⟩ := getCG_good hb h1
      obtain ⟨b'', us, h5, h6⟩ := ih b' (ts ++ [t]) h4 fun x hx => hq x (by simp [hx])
      refine ⟨b'', t :: us, ?_, .cons h2 h6⟩
      rw [List.foldlM_cons]
      dsimp only
      rw [h3]
      simp only [Outcome.ok_bind]
      rw [show ts ++ t :: us = ts ++ [t] ++ us by simp]
      exact h5
  obtain ⟨b, us, h1, h2⟩ := key qs [] [] (fun _ _ _ _ hl => by cases hl) h
  exact ⟨b, us, h1, h2⟩

theorem forall₂_split {α β : Type} {R : α → β → Prop} {l l' : List α} : ∀ {u : List β}, List.Forall₂ R (l ++ l') u →
    ∃ u1 u2, List.Forall₂ R l u1 ∧ List.Forall₂ R l' u2 ∧ u = u1 ++ u2 := by
  induction l with
  | nil => intro u h; exact ⟨[], u, .nil, h, rfl⟩
  | cons x l ih =>
    intro u h
    cases h with
    | cons hx ht =>
      obtain ⟨u1, u2, h1, h2, e⟩ := ih ht
      exact ⟨_ :: u1, u2, .cons hx h1, h2, by rw [e]; rfl⟩

/-- asking twice for one coupling gives the same table, whatever is requested in between. -/
theorem same_table (qs rs : List (ℤ × ℤ × ℤ)) (q : ℤ × ℤ × ℤ) (h : ∀ x ∈ q :: qs ++ rs, Triangle x.1 x.2.1 x.2.2) :
    ∃ b ts t us, requests (qs ++ q :: rs ++ [q]) = .ok (b, ts ++ t :: us ++ [t]) ∧ ts.length = qs.length ∧ us.length = rs.length := by
  have key : ∀ (l : List (ℤ × ℤ × ℤ)) (b : Box) (ts : List (List Frac)), Good b → (∀ q ∈ l, Triangle q.1 q.2.1 q.2.2) →
      ∃ b' us, l.foldlM (fun s q => do
          let r ← getCG s.1 q.1 q.2.1 q.2.2
          return (r.1, s.2 ++ [r.2])) (b, ts) = .ok (b', ts ++ us) ∧ Good b' ∧
        List.Forall₂ (fun q t => clebschGordan (2 * q.1) (2 * q.2.1) (2 * q.2.2) = .ok t) l us := by
    intro l
    induction l with
    | nil => intro b ts hb _; exact ⟨b, [], by rw [List.append_nil]; rfl, hb, .nil⟩
    | cons q l ih =>
      intro b ts hb hq
      obtain ⟨t, h1, h2⟩ := right_of (hq q (by simp))
      obtain ⟨b', h3, h4⟩ := getCG_good hb h1
      obtain ⟨b'', us, h5, h6, h7⟩ := ih b' (ts ++ [t]) h4 fun x hx => hq x (by simp [hx])
      refine ⟨b'', t :: us, ?_, h6, .cons h1 h7⟩
      rw [List.foldlM_cons]
      dsimp only
      rw [h3]
      simp only [Outcome.ok_bind]
      rw [show ts ++ t :: us = ts ++ [t] ++ us by simp]
      exact h5
  obtain ⟨b, us, h1, -, h2⟩ := key (qs ++ q :: rs ++ [q]) [] [] (fun _ _ _ _ hl => by cases hl) (by
    intro x hx
    apply h
    simp only [List.mem_append, List.mem_cons, List.not_mem_nil, or_false] at hx ⊢
    tauto)
  rw [List.nil_append] at h1
  obtain ⟨us1, us2, h3, h4, e⟩ := forall₂_split h2
  subst e
  obtain ⟨us3, us4, h5, h6, e⟩ := forall₂_split h3
  subst e
  cases h6 with
  | cons ht h7 =>
    cases h4 with
    | cons ht' h8 =>
      cases h8
      rw [ht] at ht'
      cases ht'
      exact ⟨b, us3, _, _, h1, h5.length_eq.symm, h7.length_eq.symm⟩

/-- outside the selection rules the element is zero. -/
theorem entry_zero (J J1 J2 m1 m2 : ℤ) (h : J < |m1 + m2|) : coefficient J J1 m1 J2 m2 = 0 := by
  unfold coefficient racah
  rw [if_neg]
  rintro ⟨-, -, ⟨k, hk, hk'⟩, -⟩
  rcases abs_cases (m1 + m2) with ⟨e, _⟩ | ⟨e, _⟩ <;> omega

/-- the elements of one `m` add up to one, up to their signs: the table is normalized. -/
theorem column_norm (J J1 J2 m : ℤ) (h : Triangle J J1 J2) (hm : |m| ≤ J) :
    ∑ m1 ∈ Icc (-J1) J1, ∑ m2 ∈ Icc (-J2) J2, (if m1 + m2 = m then coefficient J J1 m1 J2 m2 ^ 2 else 0) = 1 := by
  obtain ⟨ha, hb, hc⟩ := h
  rw [abs_le] at hm
  obtain ⟨n1, hn1⟩ := Int.eq_ofNat_of_zero_le (show 0 ≤ 2 * J1 by omega)
  obtain ⟨n2, hn2⟩ := Int.eq_ofNat_of_zero_le (show 0 ≤ 2 * J2 by omega)
  obtain ⟨a, hA⟩ := Int.eq_ofNat_of_zero_le (show 0 ≤ J1 + J2 - J by omega)
  obtain ⟨s, hs⟩ := Int.eq_ofNat_of_zero_le (show 0 ≤ J1 + J2 + m by omega)
  rw [← racah_norm (n1 := n1) (n2 := n2) (a := a) (by omega) (by omega) s (by omega) (by omega)]
  have conv : ∀ (j : ℤ) (n : ℕ) (F : ℤ → ℝ), 2 * j = n → ∑ m ∈ Icc (-j) j, F m = ∑ p ∈ range (n + 1), F (p - j) := by
    intro j n F hj
    symm
    refine sum_nbij (fun p => (p : ℤ) - j) ?_ ?_ ?_ ?_
    · intro p hp
      have := mem_range.mp hp
      rw [mem_Icc]; omega
    · intro x _ y _ hxy
      have : (x : ℤ) - j = y - j := hxy
      omega
    · intro m hm
      have hm' := mem_Icc.mp hm
      refine ⟨(m + j).toNat, mem_coe.mpr (mem_range.mpr (by omega)), ?_⟩
      show (((m + j).toNat : ℕ) : ℤ) - j = m
      omega
    · intro _ _; rfl
  rw [conv J1 n1 _ hn1]
  refine sum_congr rfl fun p hp => ?_
  rw [conv J2 n2 _ hn2]
  refine sum_congr rfl fun q hq => ?_
  unfold coefficient
  rw [show 2 * J = (n1 : ℤ) + n2 - 2 * a by omega, show 2 * ((p : ℤ) - J1) = 2 * p - n1 by omega,
    show 2 * ((q : ℤ) - J2) = 2 * q - n2 by omega, show 2 * ((p : ℤ) - J1 + (q - J2)) = 2 * p + 2 * q - n1 - n2 by omega, hn1, hn2]
  by_cases hcc : p + q = s
  · rw [if_pos hcc, if_pos (by omega)]
  · rw [if_neg hcc, if_neg (by omega)]

/-- both libraries agree: an element of a table is the square, with its sign, of the coefficient that
`clebschGordanCoeffFunction` of the amplitude library (the function of C03) returns at any time. -/
theorem libraries_agree (J J1 J2 m1 m2 : ℤ) (h : Triangle J J1 J2) (hm1 : |m1| ≤ J1) (hm2 : |m2| ≤ J2) (ops : List Clebsch.Op)
    (s s' : Clebsch.State) (hs : Clebsch.run Clebsch.init ops = some s) (v : ℝ)
    (hv : Clebsch.call s (2 * J1) (2 * m1) (2 * J2) (2 * m2) (2 * J) (2 * (m1 + m2)) = .ok (v, s')) :
    ∃ t f, clebschGordan (2 * J) (2 * J1) (2 * J2) = .ok t ∧ t[(cgIndex J1 m1 J2 m2).toNat]? = some f ∧ dval false f = v * |v| := by
  obtain ⟨t, h1, h2⟩ := right_of h
  obtain ⟨-, f, hf, hd⟩ := h2.2 m1 m2 hm1 hm2
  refine ⟨t, f, h1, hf, ?_⟩
  rcases Clebsch.request_after_any_history ops s hs (2 * J1) (2 * m1) (2 * J2) (2 * m2) (2 * J) (2 * (m1 + m2)) with ⟨_, _, ht⟩ | ⟨_, u, ht⟩
  · rw [ht] at hv; cases hv
  · rw [ht] at hv
    simp only [Outcome.ok.injEq, Prod.mk.injEq] at hv
    rw [hd, ← hv.1]; rfl

/-- two different projections have different places. -/
theorem places_distinct (J1 J2 m1 m2 m1' m2' : ℤ) (h2 : |m2| ≤ J2) (h2' : |m2'| ≤ J2)
    (e : cgIndex J1 m1 J2 m2 = cgIndex J1 m1' J2 m2') : m1 = m1' ∧ m2 = m2' := by
  unfold cgIndex at e
  rw [abs_le] at h2 h2'
  have : m1 = m1' := by
    by_contra hne
    rcases lt_or_gt_of_ne hne with hl | hl
    · nlinarith only [e, h2, h2', mul_le_mul_of_nonneg_right (show m1 + 1 ≤ m1' by omega) (show 0 ≤ 2 * J2 + 1 by omega)]
    · nlinarith only [e, h2, h2', mul_le_mul_of_nonneg_right (show m1' + 1 ≤ m1 by omega) (show 0 ≤ 2 * J2 + 1 by omega)]
  subst this
  exact ⟨rfl, by linarith only [e]⟩

/-- finding: outside the triangle condition there is only a message, and the table is not right: `GetCG(1, 0, 0)` has the
element 1, but `(0 0 0 0 | 1 0) = 0`. -/
theorem outside_triangle : ∃ t f, clebschGordan (2 * 1) (2 * 0) (2 * 0) = .ok t ∧ t[(cgIndex 0 0 0 0).toNat]? = some f ∧ dval false f = 1 ∧
    coefficient 1 0 0 0 0 = 0 := by
  obtain ⟨one, h1, h2⟩ := frac_ok 1 1 (by decide)
  have hv : Ok one 1 := by simpa using h2
  have hr : rawTable 2 0 0 = .ok [one] := by
    unfold rawTable
    rw [h1]
    simp [minTwoM1, wr, loopUp, setRow, loopDown, setTop, setLow]
  have hs : overallSign 2 0 0 [one] = 0 := by
    simp [overallSign, twoMOf]
  obtain ⟨s, h3, h4⟩ := plus_ok ok_zero (abs_ok hv)
  have hi := (invert_ok h4 (by norm_num)).2
  have hp : plus zero (absF one) = .ok s := h3
  have e1 : normalize 0 0 0 [one] (-2) = .ok [one] := by
    simp [normalize, twoMOf]
  have e2 : normalize 0 0 0 [one] 0 = .ok [mul one (invert s).2] := by
    simp [normalize, twoMOf, hp]
  have e3 : normalize 0 0 0 [mul one (invert s).2] 2 = .ok [mul one (invert s).2] := by
    simp [normalize, twoMOf]
  refine ⟨[mul one (invert s).2], mul one (invert s).2, ?_, rfl, ?_, ?_⟩
  · unfold clebschGordan
    simp only [mul_one, mul_zero]
    rw [hr, Outcome.ok_bind, hs, show loopUp (-2) 2 = [-2, 0, 2] from rfl]
    simp only [List.foldlM_cons, List.foldlM_nil, e1, e2, e3, Outcome.ok_bind]
    rfl
  · rw [(mul_ok hv hi).dval_eq]; norm_num
  · unfold coefficient racah
    rw [if_neg]
    rintro ⟨-, -, -, -, -, -, h, -⟩
    omega

/-- the hypotheses can be met, and the theorem decides values: `(1 1 1 -1 | 2 0)² = 1/6` and `(1 -1 1 1 | 1 0)² = 1/2` with
a minus sign, after another request. -/
example : ∃ b t0 t t' f f', requests [(0, 1, 1), (2, 1, 1), (1, 1, 1)] = .ok (b, [t0, t, t']) ∧
    t[(cgIndex 1 1 1 (-1)).toNat]? = some f ∧ dval false f = 1 / 6 ∧
    t'[(cgIndex 1 (-1) 1 1).toNat]? = some f' ∧ dval false f' = -(1 / 2) := by
  obtain ⟨b, ts, h1, h2⟩ := tables_right [(0, 1, 1), (2, 1, 1), (1, 1, 1)] (by
    intro q hq; simp only [List.mem_cons, List.not_mem_nil, or_false] at hq
    rcases hq with rfl | rfl | rfl <;> (unfold Triangle; decide))
  cases h2 with
  | cons x h2 => cases h2 with
    | cons hr h2 => cases h2 with
      | cons hr' h2 =>
        cases h2
        obtain ⟨-, f, hf, hv⟩ := hr.2 1 (-1) (by decide) (by decide)
        obtain ⟨-, f', hf', hv'⟩ := hr'.2 (-1) 1 (by decide) (by decide)
        refine ⟨b, _, _, _, f, f', h1, hf, ?_, hf', ?_⟩
        · have c := Cv_racah (n1 := 2) (n2 := 2) (a := 0) (by decide) (by decide) 2 0 (by decide) (by decide)
          rw [show Cv 2 2 0 2 0 = 1 / 6 by decide +kernel] at c
          rw [hv]
          refine Eq.trans ?_ (c.symm.trans (by norm_num))
          rfl
        · have c := Cv_racah (n1 := 2) (n2 := 2) (a := 1) (by decide) (by decide) 0 2 (by decide) (by decide)
          rw [show Cv 2 2 1 0 2 = -(1 / 2) by decide +kernel] at c
          rw [hv']
          refine Eq.trans ?_ (c.symm.trans (by norm_num))
          rfl

end Rpwa.CgBox
