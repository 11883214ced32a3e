import Verif.Lemmas.Fraction
import Verif.Spec.Fraction
namespace Rpwa.Fraction

/-- representation invariant: object `f` represents the rational `q`. -/
structure Ok (f : Frac) (q : Rat) : Prop where
  sgn : f.sign = 1 ∨ f.sign = -1 ∨ f.sign = 0
  zer : f.sign = 0 → f.nom = [] ∧ f.den = []
  red : Red f.nom f.den
  val : q = f.sign * (number 0 f.nom : Rat) / (number 0 f.den : Rat)
  num : f.numC = none ∨ f.numC = some (if f.sign = 0 then 0 else (number 0 f.nom : Int))
  den' : f.denC = none ∨ f.denC = some (if f.sign = 0 then 1 else (number 0 f.den : Int))
  vc : f.valC = none ∨ f.valC = some (q : Real)

theorem number_ne (k : Nat) (v : List Nat) : (number k v : Rat) ≠ 0 := by
  have := number_pos k v; positivity

theorem number_ne_real (k : Nat) (v : List Nat) : (number k v : Real) ≠ 0 := by
  have := number_pos k v; positivity

theorem Ok.numerator_eq {f q} (h : Ok f q) : numerator f = if f.sign = 0 then 0 else (number 0 f.nom : Int) := by
  unfold numerator
  rcases h.num with e | e <;> rw [e]

theorem Ok.denominator_eq {f q} (h : Ok f q) : denominator f = (number 0 f.den : Int) := by
  unfold denominator
  by_cases hs : f.sign = 0
  · have hd := (h.zer hs).2
    rcases h.den' with e | e <;> rw [e] <;> simp [hs, hd, number]
  · rcases h.den' with e | e <;> rw [e] <;> simp [hs]

theorem Ok.sign_num {f q} (h : Ok f q) : f.sign * numerator f = f.sign * (number 0 f.nom : Int) := by
  rw [h.numerator_eq]; split_ifs with hs
  · simp [hs]
  · rfl

theorem Ok.sign_zero_iff {f q} (h : Ok f q) : f.sign = 0 ↔ q = 0 := by
  have h1 := number_ne 0 f.nom
  have h2 := number_ne 0 f.den
  rw [h.val]
  constructor
  · intro hs; simp [hs]
  · intro e; simp [h1, h2] at e; exact e

theorem Ok.dval_eq {f q} (h : Ok f q) : dval false f = (q : Real) := by
  unfold dval
  rcases h.vc with e | e <;> rw [e]
  simp only [Bool.false_eq_true, if_false]
  split_ifs with hs
  · rw [h.sign_zero_iff.1 hs]; simp
  · rw [h.numerator_eq, h.denominator_eq, if_neg hs, h.val]
    push_cast; ring

theorem Ok.getNumerator {f q} (h : Ok f q) : Ok (getNumerator f) q :=
  ⟨h.sgn, h.zer, h.red, h.val, Or.inr (by rw [Fraction.getNumerator, h.numerator_eq]), h.den', h.vc⟩

theorem Ok.getDenominator {f q} (h : Ok f q) : Ok (getDenominator f) q :=
  ⟨h.sgn, h.zer, h.red, h.val, h.num, Or.inr (by
    simp only [Fraction.getDenominator]; rw [h.denominator_eq]
    by_cases hs : f.sign = 0
    · simp [(h.zer hs).2, number]
    · simp [hs]), h.vc⟩

theorem Ok.getDval {f q} (h : Ok f q) : Ok (getDval false f) q := by
  have hd := h.dval_eq
  unfold Fraction.getDval
  rcases h.vc with e | e
  · rw [e]; simp only
    split_ifs with hs
    · exact ⟨h.sgn, h.zer, h.red, h.val, h.num, h.den', Or.inr (by rw [hd])⟩
    · have h' := h.getNumerator.getDenominator
      exact ⟨h'.sgn, h'.zer, h'.red, h'.val, h'.num, h'.den', Or.inr (by rw [hd])⟩
  · rw [e]; exact h

theorem ok_default : Ok default1 1 :=
  ⟨Or.inl rfl, by simp [default1], trivial, by simp [default1, number], Or.inr (by simp [default1, number]),
    Or.inr (by simp [default1, number]), Or.inr (by simp [default1])⟩

theorem ok_zero : Ok zero 0 :=
  ⟨Or.inr (Or.inr rfl), by simp [zero], trivial, by simp [zero], Or.inl rfl, Or.inl rfl, Or.inr (by simp [zero])⟩

theorem red_append_zero_right (a b : List Nat) (n : Nat) (h : Red a (b ++ List.replicate n 0)) : Red a b :=
  red_symm _ _ (red_append_zero_left _ _ n (red_symm _ _ h))

theorem red_removeZeros (a b : List Nat) (h : Red a b) : Red (removeZeros a) (removeZeros b) := by
  obtain ⟨n, hn⟩ := removeZeros_spec a
  obtain ⟨m, hm⟩ := removeZeros_spec b
  rw [hn, hm] at h
  exact red_append_zero_right _ _ m (red_append_zero_left _ _ n h)

/-- canonical form: no trailing zeros -/
def Canon (f : Frac) : Prop := NoTrail f.nom ∧ NoTrail f.den

theorem ofInts_ok (n d : Int) (hd : d ≠ 0) : ∃ f, ofInts n d = some f ∧ Ok f (n / d) ∧ Canon f := by
  unfold ofInts
  by_cases hn : n = 0
  · rw [if_pos hn, if_neg hd]
    refine ⟨_, rfl, ?_, noTrail_nil, noTrail_nil⟩
    have := ok_zero
    rw [hn]; simpa [zero] using this
  · rw [if_neg hn, if_neg hd]
    have e1 : (if n < 0 then n * -1 else n) = (n.natAbs : Int) := by split_ifs <;> omega
    have e2 : (if d < 0 then d * -1 else d) = (d.natAbs : Int) := by split_ifs <;> omega
    simp only [e1, e2, Int.toNat_natCast]
    obtain ⟨vn, h1, h2, _⟩ := factor_spec n.natAbs [] (by omega)
    obtain ⟨vd, h3, h4, _⟩ := factor_spec d.natAbs [] (by omega)
    rw [h1, h3]
    simp only [Option.bind_some]
    simp only [number, one_mul] at h2 h4
    refine ⟨_, rfl, ?_, noTrail_removeZeros _, noTrail_removeZeros _⟩
    have key := cancel_value 0 vn vd
    rw [h2, h4] at key
    refine ⟨?_, ?_, red_removeZeros _ _ (cancel_red _ _), ?_, Or.inl rfl, Or.inl rfl, Or.inl rfl⟩
    · simp only; split_ifs <;> simp
    · simp only; split_ifs <;> simp
    · simp only [number_removeZeros]
      have hp := number_ne 0 (cancel vn vd).2
      rw [eq_div_iff hp]
      have hdq : (d : Rat) ≠ 0 := by exact_mod_cast hd
      rw [div_mul_eq_mul_div, div_eq_iff hdq]
      have keyq : (number 0 (cancel vn vd).1 : Rat) * (d.natAbs : Rat) = (n.natAbs : Rat) * number 0 (cancel vn vd).2 := by
        exact_mod_cast key
      have c : ∀ z : Int, (z.natAbs : Rat) = if z < 0 then -(z : Rat) else z := by
        intro z; rw [Nat.cast_natAbs]; split_ifs with h
        · rw [abs_of_neg h]; push_cast; rfl
        · rw [abs_of_nonneg (by omega)]
      rw [c n, c d] at keyq
      split_ifs at keyq ⊢ <;> push_cast <;> linarith

theorem factorialLoop_spec (cnt fac : Nat) (hf : 0 < fac) (v : List Nat) :
    ∃ v', factorialLoop cnt fac v = some v' ∧
      number 0 v' * Nat.factorial (fac - 1) = number 0 v * Nat.factorial (fac - 1 + cnt) ∧
      (NoTrail v → NoTrail v') := by
  induction cnt generalizing fac v with
  | zero => exact ⟨v, rfl, rfl, id⟩
  | succ cnt ih =>
    obtain ⟨v1, h1, h2, h3⟩ := factor_spec fac v hf
    obtain ⟨v2, h4, h5, h6⟩ := ih (fac + 1) (by omega) v1
    refine ⟨v2, by simp [factorialLoop, h1, h4], ?_, fun hv => h6 (h3 hv)⟩
    have e : fac + 1 - 1 = fac := by omega
    rw [e, h2] at h5
    have hfac : Nat.factorial fac = fac * Nat.factorial (fac - 1) := (Nat.mul_factorial_pred (by omega)).symm
    rw [show fac - 1 + (cnt + 1) = fac + cnt by omega]
    rw [hfac] at h5
    apply Nat.eq_of_mul_eq_mul_left hf
    linarith

theorem ofFactorials_ok (N D : Nat) : ∃ f, ofFactorials N D = some f ∧ Ok f (N.factorial / D.factorial) ∧ Canon f := by
  unfold ofFactorials
  have hD : (D.factorial : Rat) ≠ 0 := by have := D.factorial_pos; positivity
  have hN : (N.factorial : Rat) ≠ 0 := by have := N.factorial_pos; positivity
  by_cases h : N = D
  · rw [if_pos h]
    refine ⟨_, rfl, ?_, noTrail_nil, noTrail_nil⟩
    subst h
    exact ⟨Or.inl rfl, by simp, trivial, by simp [number, hN], Or.inl rfl, Or.inl rfl, Or.inl rfl⟩
  · rw [if_neg h]
    simp only
    by_cases hlt : N > D
    · simp only [if_pos hlt]
      obtain ⟨v, h1, h2, h3⟩ := factorialLoop_spec (N - D) (D + 1) (by omega) []
      rw [h1]; simp only [Option.bind_some]
      rw [if_neg (by omega)]
      refine ⟨_, rfl, ?_, h3 noTrail_nil, noTrail_nil⟩
      refine ⟨Or.inl rfl, by simp, red_nil_right _, ?_, Or.inl rfl, Or.inl rfl, Or.inl rfl⟩
      simp only [number, Nat.add_sub_cancel, one_mul] at h2 ⊢
      rw [show D + (N - D) = N by omega] at h2
      have h2q : (number 0 v : Rat) * D.factorial = N.factorial := by exact_mod_cast h2
      rw [div_eq_iff hD]; simp [h2q]
    · simp only [if_neg hlt]
      obtain ⟨v, h1, h2, h3⟩ := factorialLoop_spec (D - N) (N + 1) (by omega) []
      rw [h1]; simp only [Option.bind_some]
      rw [if_pos (by omega)]
      refine ⟨_, rfl, ?_, noTrail_nil, h3 noTrail_nil⟩
      refine ⟨Or.inl rfl, by simp, red_nil_left _, ?_, Or.inl rfl, Or.inl rfl, Or.inl rfl⟩
      simp only [number, Nat.add_sub_cancel, one_mul] at h2 ⊢
      rw [show N + (D - N) = D by omega] at h2
      have h2q : (number 0 v : Rat) * N.factorial = D.factorial := by exact_mod_cast h2
      rw [← h2q]; have := number_ne 0 v; field_simp; push_cast; ring

theorem mul_ok {a b : Frac} {x y : Rat} (ha : Ok a x) (hb : Ok b y) : Ok (mul a b) (x * y) := by
  have sa := ha.sgn
  have sb := hb.sgn
  unfold mul
  rw [if_neg (by rcases sa with h | h | h <;> rcases sb with h' | h' | h' <;> simp [h, h'])]
  rw [if_neg (by rcases sa with h | h | h <;> rcases sb with h' | h' | h' <;> simp [h, h'])]
  rw [if_neg (by rcases sa with h | h | h <;> rcases sb with h' | h' | h' <;> simp [h, h'])]
  split_ifs with hz
  · have : x * y = 0 := by
      rcases mul_eq_zero.1 hz with h | h
      · rw [ha.sign_zero_iff.1 h]; simp
      · rw [hb.sign_zero_iff.1 h]; simp
    rw [this]; exact ok_zero
  · refine ⟨?_, fun h => absurd h hz, cancel_red _ _, ?_, Or.inl rfl, Or.inl rfl, Or.inl rfl⟩
    · simp only
      rcases sa with h | h | h <;> rcases sb with h' | h' | h' <;> simp [h, h']
    · simp only
      have key := cancel_value 0 (addExp a.nom b.nom) (addExp a.den b.den)
      rw [number_addExp, number_addExp] at key
      have keyq : (number 0 (cancel (addExp a.nom b.nom) (addExp a.den b.den)).1 : Rat) * (number 0 a.den * number 0 b.den) =
        number 0 a.nom * number 0 b.nom * number 0 (cancel (addExp a.nom b.nom) (addExp a.den b.den)).2 := by exact_mod_cast key
      rw [ha.val, hb.val]
      have h1 := number_ne 0 a.den
      have h2 := number_ne 0 b.den
      have h3 := number_ne 0 (cancel (addExp a.nom b.nom) (addExp a.den b.den)).2
      rw [div_mul_div_comm, div_eq_div_iff (mul_ne_zero h1 h2) h3]
      push_cast
      linear_combination (-(a.sign : Rat) * b.sign) * keyq

theorem add_ok {a b : Frac} {x y : Rat} (ha : Ok a x) (hb : Ok b y) :
    ∃ f, add a b = some f ∧ Ok f (x + y) ∧ Canon f := by
  unfold add
  rw [ha.denominator_eq, hb.denominator_eq, ha.sign_num, hb.sign_num]
  obtain ⟨ca, hca⟩ := cdiv_dvd_left 0 a.den b.den
  obtain ⟨cb, hcb⟩ := cdiv_dvd_right 0 a.den b.den
  set c := denomCommonDivisor 0 a.den b.den with hc
  have hcpos : 0 < c := Nat.pos_of_dvd_of_pos (cdiv_dvd_left 0 a.den b.den) (number_pos _ _)
  have hcz : (c : Int) ≠ 0 := by omega
  have e1 : (number 0 a.den : Int) / (c : Int) = ca := by
    rw [hca]; push_cast; exact Int.mul_ediv_cancel_left _ hcz
  have e2 : (number 0 b.den : Int) / (c : Int) = cb := by
    rw [hcb]; push_cast; exact Int.mul_ediv_cancel_left _ hcz
  simp only [e1, e2]
  have hb0 : 0 < cb := by
    have := number_pos 0 b.den; rw [hcb] at this; exact Nat.pos_of_mul_pos_left this
  have ha0 : 0 < ca := by
    have := number_pos 0 a.den; rw [hca] at this; exact Nat.pos_of_mul_pos_left this
  obtain ⟨f, h1, h2, h3⟩ := ofInts_ok (a.sign * (number 0 a.nom : Int) * cb + b.sign * (number 0 b.nom : Int) * ca)
    ((number 0 a.den : Int) * cb) (by have := number_pos 0 a.den; positivity)
  refine ⟨f, h1, ?_, h3⟩
  have : x + y = ((a.sign * (number 0 a.nom : Int) * cb + b.sign * (number 0 b.nom : Int) * ca : Int) : Rat) / (((number 0 a.den : Int) * cb : Int) : Rat) := by
    rw [ha.val, hb.val, hca, hcb]
    have h1 : (c : Rat) ≠ 0 := by positivity
    have h2 : (ca : Rat) ≠ 0 := by positivity
    have h3 : (cb : Rat) ≠ 0 := by positivity
    push_cast
    field_simp
  rw [this]; exact h2

theorem flipSign_ok {a : Frac} {x : Rat} (ha : Ok a x) : Ok (flipSign a) (-x) := by
  have hz : a.sign * -1 = 0 ↔ a.sign = 0 := by omega
  refine ⟨?_, ?_, ha.red, ?_, ?_, ?_, ?_⟩
  · rcases ha.sgn with h | h | h <;> simp [flipSign, h]
  · intro h; exact ha.zer (hz.1 h)
  · simp only [flipSign]; rw [ha.val]; push_cast; ring
  · simp only [flipSign, hz]; exact ha.num
  · simp only [flipSign, hz]; exact ha.den'
  · rcases ha.vc with h | h <;> simp [flipSign, h]

theorem abs_ok {a : Frac} {x : Rat} (ha : Ok a x) : Ok (absF a) |x| := by
  unfold absF
  split_ifs with hs
  · have : |x| = x := by rw [ha.sign_zero_iff.1 hs]; simp
    rw [this]; exact ha
  · refine ⟨Or.inl rfl, fun h => by simp at h, ha.red, ?_, ?_, ?_, ?_⟩
    · simp only; rw [ha.val]
      rw [abs_div, abs_mul, Nat.abs_cast, Nat.abs_cast]
      have : |(a.sign : Rat)| = 1 := by
        rcases ha.sgn with h | h | h
        · simp [h]
        · simp [h]
        · exact absurd h hs
      rw [this]; simp
    · rcases ha.num with h | h <;> simp [h, hs]
    · rcases ha.den' with h | h <;> simp [h, hs]
    · rcases ha.vc with h | h <;> simp [h]

theorem invert_ok {a : Frac} {x : Rat} (ha : Ok a x) (hx : x ≠ 0) :
    (invert a).1 = true ∧ Ok (invert a).2 x⁻¹ := by
  have hs : a.sign ≠ 0 := fun h => hx (ha.sign_zero_iff.1 h)
  have hn := number_pos 0 a.nom
  unfold invert
  rw [if_neg (by rcases ha.sgn with h | h | h <;> simp [h])]
  rw [if_neg (by rw [ha.numerator_eq, if_neg hs]; omega)]
  refine ⟨rfl, ?_⟩
  refine ⟨ha.sgn, fun h => absurd h hs, red_symm _ _ ha.red, ?_, Or.inl rfl, Or.inl rfl, Or.inl rfl⟩
  simp only [Frac.reset]
  rw [ha.val]
  have h1 := number_ne 0 a.nom
  have h2 := number_ne 0 a.den
  rcases ha.sgn with h | h | h
  · rw [h]; field_simp; try push_cast; try ring
  · rw [h]; push_cast; field_simp
  · exact absurd h hs

theorem red_map_half (a b : List Nat) (h : Red a b) : Red (a.map (· / 2)) (b.map (· / 2)) := by
  induction a generalizing b with
  | nil => exact red_nil_left _
  | cons x xs ih =>
    cases b with
    | nil => trivial
    | cons y ys => exact ⟨by rcases h.1 with h | h <;> simp [h], ih _ h.2⟩

theorem abs_val {a : Frac} {x : Rat} (ha : Ok a x) (hs : a.sign ≠ 0) :
    |x| = (number 0 a.nom : Rat) / (number 0 a.den : Rat) := by
  rw [ha.val, abs_div, abs_mul, Nat.abs_cast, Nat.abs_cast]
  have : |(a.sign : Rat)| = 1 := by
    rcases ha.sgn with h | h | h
    · simp [h]
    · simp [h]
    · exact absurd h hs
  rw [this]; simp

theorem coprime_not_sq {a b : Nat} (hb : 0 < b) (hab : Nat.Coprime a b) {r : Rat} (h : r * r = (a : Rat) / b) :
    (∃ m, a = m ^ 2) ∧ (∃ m, b = m ^ 2) := by
  have hsq : IsSquare ((a : Rat) / b) := ⟨r, h.symm⟩
  rw [Rat.isSquare_iff] at hsq
  have hq : ((a : Rat) / (b : Rat)) = ((a : Int) : Rat) / ((b : Int) : Rat) := by push_cast; rfl
  have hn : ((a : Rat) / b).num = a := by
    rw [hq]; exact Rat.num_div_eq_of_coprime (by exact_mod_cast hb) (by simpa using hab)
  have hd : (((a : Rat) / b).den : Int) = b := by
    rw [hq]; exact Rat.den_div_eq_of_coprime (by exact_mod_cast hb) (by simpa using hab)
  have hd' : ((a : Rat) / b).den = b := by exact_mod_cast hd
  rw [hn, hd'] at hsq
  obtain ⟨⟨m, hm⟩, ⟨k, hk⟩⟩ := hsq
  refine ⟨⟨m.natAbs, ?_⟩, ⟨k, by rw [hk]; ring⟩⟩
  have : (a : Int) = (m.natAbs : Int) ^ 2 := by rw [hm]; rw [Int.natAbs_sq]; ring
  exact_mod_cast this

theorem sqrt_ok {a : Frac} {x : Rat} (ha : Ok a x) :
    ((sqrt a).1 = true ↔ ∃ r : Rat, r * r = |x|) ∧ Ok (sqrt a).2 (signedSqrtOrSelf x) := by
  unfold sqrt
  by_cases hs : a.sign = 0
  · have hx := ha.sign_zero_iff.1 hs
    rw [if_pos (Or.inl hs)]
    simp only [hs, if_true]
    refine ⟨by simp [hx], ?_⟩
    have : signedSqrtOrSelf x = x := by simp [hx, signedSqrtOrSelf]
    rw [this]; exact ha
  · have hn := number_pos 0 a.nom
    rw [if_neg (by rw [ha.numerator_eq, if_neg hs]; push Not; exact ⟨hs, by omega⟩)]
    have hab := abs_val ha hs
    have hcop := red_coprime 0 _ _ ha.red
    simp only
    have e1 : (getNumerator a).nom = a.nom := rfl
    have e2 : (getNumerator a).den = a.den := rfl
    rw [e1, e2]
    have self : (¬ ∃ r : Rat, r * r = |x|) → signedSqrtOrSelf x = x := by
      intro h
      unfold signedSqrtOrSelf
      rw [if_neg]
      intro h'; exact h ⟨_, h'⟩
    by_cases h1 : a.nom.any (· % 2 ≠ 0) = true
    · rw [if_pos h1]
      have hno : ¬ ∃ r : Rat, r * r = |x| := by
        rintro ⟨r, hr⟩
        rw [hab] at hr
        obtain ⟨⟨m, hm⟩, _⟩ := coprime_not_sq (number_pos _ _) hcop hr
        exact number_not_sq 0 _ h1 m hm
      refine ⟨by simp [hno], ?_⟩
      rw [self hno]; exact ha.getNumerator
    · rw [if_neg h1]
      by_cases h2 : a.den.any (· % 2 ≠ 0) = true
      · rw [if_pos h2]
        have hno : ¬ ∃ r : Rat, r * r = |x| := by
          rintro ⟨r, hr⟩
          rw [hab] at hr
          obtain ⟨_, ⟨m, hm⟩⟩ := coprime_not_sq (number_pos _ _) hcop hr
          exact number_not_sq 0 _ h2 m hm
        refine ⟨by simp [hno], ?_⟩
        rw [self hno]; exact ha.getNumerator
      · rw [if_neg h2]
        have q1 := number_sq 0 a.nom (by simpa using h1)
        have q2 := number_sq 0 a.den (by simpa using h2)
        have hr : ((number 0 (a.nom.map (· / 2)) : Rat) / number 0 (a.den.map (· / 2))) *
            ((number 0 (a.nom.map (· / 2)) : Rat) / number 0 (a.den.map (· / 2))) = |x| := by
          rw [hab, q1, q2]; push_cast; rw [div_mul_div_comm]; ring
        refine ⟨by simp only [true_iff]; exact ⟨_, hr⟩, ?_⟩
        refine ⟨ha.sgn, fun h => absurd h hs, red_map_half _ _ ha.red, ?_, Or.inl rfl, Or.inl rfl, Or.inl rfl⟩
        simp only [Frac.reset]
        have hsq : Rat.sqrt |x| = (number 0 (a.nom.map (· / 2)) : Rat) / number 0 (a.den.map (· / 2)) := by
          rw [← hr, Rat.sqrt_eq, abs_of_nonneg (by positivity)]
        unfold signedSqrtOrSelf
        rw [hsq, if_pos hr]
        have : ((SignType.sign x : SignType) : Rat) = a.sign := by
          have hp1 : (0 : Rat) < number 0 a.nom := by exact_mod_cast number_pos 0 a.nom
          have hp2 : (0 : Rat) < number 0 a.den := by exact_mod_cast number_pos 0 a.den
          rcases ha.sgn with h | h | h
          · have : 0 < x := by rw [ha.val, h]; push_cast; positivity
            rw [sign_pos this, h]; simp
          · have : x < 0 := by
              rw [ha.val, h]; push_cast
              have : (0:Rat) < number 0 a.nom / number 0 a.den := by positivity
              rw [neg_one_mul, neg_div]; linarith
            rw [sign_neg this, h]; simp
          · exact absurd h hs
        rw [this]
        show _ = (a.sign : Rat) * _ / _
        ring

end Rpwa.Fraction
