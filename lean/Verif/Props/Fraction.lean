import Verif.Lemmas.FractionOps
/-!
Property C10 (exact fractions, `TFracNum`).

* `program_value`: every straight-line program over the API ends and returns the mathematically right value.
* `sqrt_flag`, `sumSignedRoots_spec`, `greater_iff`, `c_sub_ell_value` …: the remaining operations.
* equality: `equal_sound` (never true for different values), `equal_iff_partial` (exact for programs without
  `operator*=`); the full claim is false: `not_equal_complete` (2·(1/2) ≠ 1 because `operator*=` keeps trailing zeros).
* further refutations: `dval_sqrt_poisons`, `infinity_flip`, `infinity_add`.
* `isPrimeNumber_iff`, `primeTable`: the table the class relies on holds exactly the primes in order.
-/
namespace Rpwa.Fraction

private theorem run_ok (p : Prog) (q : Rat) (h : p.mathValue = some q) : ∃ f, p.run = some f ∧ Ok f q := by
  induction p generalizing q with
  | one => simp only [Prog.mathValue, Option.some.injEq] at h; subst h; exact ⟨_, rfl, ok_default⟩
  | ofInts n d =>
    simp only [Prog.mathValue] at h
    split_ifs at h with hd
    simp only [Option.some.injEq] at h; subst h
    obtain ⟨f, h1, h2, _⟩ := ofInts_ok n d hd
    exact ⟨f, h1, h2⟩
  | ofFactorials N D =>
    simp only [Prog.mathValue, Option.some.injEq] at h; subst h
    obtain ⟨f, h1, h2, _⟩ := ofFactorials_ok N D
    exact ⟨f, h1, h2⟩
  | mul a b iha ihb =>
    simp only [Prog.mathValue, Option.bind_eq_bind, Option.bind_eq_some_iff, Option.pure_def, Option.some.injEq] at h
    obtain ⟨x, hx, y, hy, rfl⟩ := h
    obtain ⟨f, h1, h2⟩ := iha x hx
    obtain ⟨g, h3, h4⟩ := ihb y hy
    exact ⟨mul f g, by simp [Prog.run, h1, h3], mul_ok h2 h4⟩
  | add a b iha ihb =>
    simp only [Prog.mathValue, Option.bind_eq_bind, Option.bind_eq_some_iff, Option.pure_def, Option.some.injEq] at h
    obtain ⟨x, hx, y, hy, rfl⟩ := h
    obtain ⟨f, h1, h2⟩ := iha x hx
    obtain ⟨g, h3, h4⟩ := ihb y hy
    obtain ⟨r, h5, h6, _⟩ := add_ok h2 h4
    exact ⟨r, by simp [Prog.run, h1, h3, h5], h6⟩
  | invert a ih =>
    simp only [Prog.mathValue, Option.bind_eq_bind, Option.bind_eq_some_iff] at h
    obtain ⟨x, hx, h⟩ := h
    split_ifs at h with h0
    simp only [Option.pure_def, Option.some.injEq] at h; subst h
    obtain ⟨f, h1, h2⟩ := ih x hx
    exact ⟨_, by simp [Prog.run, h1], (invert_ok h2 h0).2⟩
  | flipSign a ih =>
    simp only [Prog.mathValue, Option.bind_eq_bind, Option.bind_eq_some_iff, Option.pure_def, Option.some.injEq] at h
    obtain ⟨x, hx, rfl⟩ := h
    obtain ⟨f, h1, h2⟩ := ih x hx
    exact ⟨_, by simp [Prog.run, h1], flipSign_ok h2⟩
  | abs a ih =>
    simp only [Prog.mathValue, Option.bind_eq_bind, Option.bind_eq_some_iff, Option.pure_def, Option.some.injEq] at h
    obtain ⟨x, hx, rfl⟩ := h
    obtain ⟨f, h1, h2⟩ := ih x hx
    exact ⟨_, by simp [Prog.run, h1], abs_ok h2⟩
  | sqrt a ih =>
    simp only [Prog.mathValue, Option.bind_eq_bind, Option.bind_eq_some_iff, Option.pure_def, Option.some.injEq] at h
    obtain ⟨x, hx, rfl⟩ := h
    obtain ⟨f, h1, h2⟩ := ih x hx
    exact ⟨_, by simp [Prog.run, h1], (sqrt_ok h2).2⟩
  | readNum a ih =>
    obtain ⟨f, h1, h2⟩ := ih q h
    exact ⟨_, by simp [Prog.run, h1], h2.getNumerator⟩
  | readDen a ih =>
    obtain ⟨f, h1, h2⟩ := ih q h
    exact ⟨_, by simp [Prog.run, h1], h2.getDenominator⟩
  | readVal a ih =>
    obtain ⟨f, h1, h2⟩ := ih q h
    exact ⟨_, by simp [Prog.run, h1], h2.getDval⟩

/-- C10, values: whatever sequence of constructions, products, sums, inversions, sign changes, square roots and
reads is performed, if no division by zero occurs then the calls return, and `Dval()` and sign, numerator and denominator of
the result are those of the mathematical value; numerator and denominator are coprime. -/
theorem program_value (p : Prog) (q : Rat) (h : p.mathValue = some q) :
    ∃ f, p.run = some f ∧ dval false f = (q : Real) ∧ (f.sign : Rat) * numerator f / denominator f = q ∧
      (q ≠ 0 → numerator f = |q.num| ∧ denominator f = q.den) := by
  obtain ⟨f, h1, h2⟩ := run_ok p q h
  refine ⟨f, h1, h2.dval_eq, ?_, ?_⟩
  · have := h2.sign_num
    rw [h2.denominator_eq, h2.val]
    have e : (f.sign : Rat) * (numerator f : Rat) = f.sign * (number 0 f.nom : Rat) := by exact_mod_cast this
    rw [e]; push_cast; rfl
  · intro hq
    have hs : f.sign ≠ 0 := fun hc => hq (h2.sign_zero_iff.1 hc)
    have hb := number_pos 0 f.den
    have hcop := red_coprime 0 _ _ h2.red
    have hab := abs_val h2 hs
    have hq' : ((number 0 f.nom : Rat) / number 0 f.den) = ((number 0 f.nom : Int) : Rat) / ((number 0 f.den : Int) : Rat) := by
      push_cast; rfl
    have hn : (|q|).num = (number 0 f.nom : Int) := by
      rw [hab, hq']; exact Rat.num_div_eq_of_coprime (by exact_mod_cast hb) (by simpa using hcop)
    have hd : ((|q|).den : Int) = (number 0 f.den : Int) := by
      rw [hab, hq']; exact Rat.den_div_eq_of_coprime (by exact_mod_cast hb) (by simpa using hcop)
    rw [h2.numerator_eq, if_neg hs, h2.denominator_eq, ← hn, ← hd]
    rcases abs_choice q with e | e
    · rw [e]; refine ⟨?_, rfl⟩
      rw [abs_of_nonneg]; exact Rat.num_nonneg.2 (abs_eq_self.1 e)
    · rw [e]; refine ⟨?_, by simp⟩
      rw [Rat.num_neg_eq_neg_num, abs_of_nonpos]; exact Rat.num_nonpos.2 (abs_eq_neg_self.1 e)

/-- non-vacuity: (2/3 + (-1)/6)² … `Sqrt` of `((2/3 - 1/6) * (1/2))` is `1/2`. -/
example : (Prog.sqrt (.mul (.add (.ofInts 2 3) (.ofInts (-1) 6)) (.ofInts 1 2))).mathValue = some (1 / 2) := by
  have h1 : Rat.sqrt (1 / 4) = 1 / 2 := by
    rw [show (1 / 4 : Rat) = (1 / 2) * (1 / 2) by norm_num, Rat.sqrt_eq]; norm_num
  have h2 : |(1 / 4 : Rat)| = 1 / 4 := by norm_num
  have hv : ((2 : Rat) / 3 + (-1) / 6) * (1 / 2) = 1 / 4 := by norm_num
  have h3 : signedSqrtOrSelf (1 / 4) = 1 / 2 := by
    unfold signedSqrtOrSelf
    rw [h2, h1, if_pos (by norm_num), sign_pos (by norm_num)]; norm_num
  simp only [Prog.mathValue]
  norm_num
  convert h3 using 2

/-- C10: `Sqrt` succeeds exactly on squares of rationals (up to sign). -/
theorem sqrt_flag (p : Prog) (q : Rat) (h : p.mathValue = some q) (f : Frac) (hf : p.run = some f) :
    (sqrt f).1 = true ↔ ∃ r : Rat, r * r = |q| := by
  obtain ⟨f', h1, h2⟩ := run_ok p q h
  rw [hf, Option.some.injEq] at h1; subst h1
  exact (sqrt_ok h2).1

/-- C10: `Invert` succeeds exactly on non-zero numbers. -/
theorem invert_flag (p : Prog) (q : Rat) (h : p.mathValue = some q) (f : Frac) (hf : p.run = some f) :
    (invert f).1 = true ↔ q ≠ 0 := by
  obtain ⟨f', h1, h2⟩ := run_ok p q h
  rw [hf, Option.some.injEq] at h1; subst h1
  constructor
  · intro hi hq
    have hs := h2.sign_zero_iff.2 hq
    unfold invert at hi
    rw [if_neg (by simp [hs]), if_pos (by rw [h2.numerator_eq, if_pos hs])] at hi
    simp at hi
  · intro hq; exact (invert_ok h2 hq).1

/-- C10: `operator>` is the order of the values. -/
theorem greater_iff (p p' : Prog) (q q' : Rat) (h : p.mathValue = some q) (h' : p'.mathValue = some q')
    (f f' : Frac) (hf : p.run = some f) (hf' : p'.run = some f') :
    dval false f > dval false f' ↔ q > q' := by
  obtain ⟨g, h1, h2⟩ := run_ok p q h
  rw [hf, Option.some.injEq] at h1; subst h1
  obtain ⟨g', h1', h2'⟩ := run_ok p' q' h'
  rw [hf', Option.some.injEq] at h1'; subst h1'
  rw [h2.dval_eq, h2'.dval_eq]; exact_mod_cast Iff.rfl

private theorem ssqrt_mono {x y : Real} (h : x < y) : ssqrt x < ssqrt y := by
  unfold ssqrt
  rcases lt_trichotomy x 0 with hx | hx | hx
  · rw [sign_neg hx, abs_of_neg hx]
    rcases lt_trichotomy y 0 with hy | hy | hy
    · rw [sign_neg hy, abs_of_neg hy]
      have := Real.sqrt_lt_sqrt (x := -y) (y := -x) (by linarith) (by linarith)
      simp; linarith
    · have := Real.sqrt_pos.2 (show 0 < -x by linarith)
      simp [hy]; linarith
    · have := Real.sqrt_pos.2 (show 0 < -x by linarith)
      have := Real.sqrt_pos.2 hy
      rw [sign_pos hy, abs_of_pos hy]; simp; linarith
  · have hy : 0 < y := by linarith
    have := Real.sqrt_pos.2 hy
    rw [sign_pos hy, abs_of_pos hy]; simp [hx]; linarith
  · have hy : 0 < y := by linarith
    rw [sign_pos hx, abs_of_pos hx, sign_pos hy, abs_of_pos hy]
    have := Real.sqrt_lt_sqrt hx.le h
    simp; linarith

private theorem ssqrt_neg (x : Real) : ssqrt (-x) = -ssqrt x := by
  unfold ssqrt
  rw [Left.sign_neg, abs_neg]; simp

private theorem ssqrt_sq (s : Real) (hs : 0 ≤ s) : ssqrt (s ^ 2) = s := by
  unfold ssqrt
  rcases hs.eq_or_lt with h | h
  · simp [← h]
  · rw [sign_pos (by positivity), abs_of_pos (by positivity), Real.sqrt_sq hs]; simp

private theorem ssqrt_mul_self (x : Real) : ssqrt x ^ 2 = |x| := by
  unfold ssqrt
  rcases lt_trichotomy x 0 with h | h | h
  · rw [sign_neg h]; simp
  · simp [h]
  · rw [sign_pos h]; simp

private theorem ssqrt_mul (x y : Real) : ssqrt (x * y) = ssqrt x * ssqrt y := by
  unfold ssqrt
  rw [sign_mul, abs_mul, Real.sqrt_mul (abs_nonneg x)]; simp; ring

private theorem ssqrt_of_rat (q : Rat) (h : ∃ r : Rat, r * r = |q|) : ((signedSqrtOrSelf q : Rat) : Real) = ssqrt q := by
  have h' := Rat.exists_mul_self |q| |>.1 h
  unfold signedSqrtOrSelf ssqrt
  rw [if_pos h']
  have hnn : 0 ≤ Rat.sqrt |q| := Rat.sqrt_nonneg _
  have hr : Real.sqrt |(q : Real)| = (Rat.sqrt |q| : Rat) := by
    rw [show |(q : Real)| = ((Rat.sqrt |q| : Rat) : Real) * ((Rat.sqrt |q| : Rat) : Real) by
      rw [← Rat.cast_mul, h']; push_cast; rfl]
    exact Real.sqrt_mul_self (by exact_mod_cast hnn)
  rw [hr]
  rcases lt_trichotomy q 0 with h | h | h
  · rw [sign_neg h, sign_neg (by exact_mod_cast h)]; simp
  · simp [h]
  · rw [sign_pos h, sign_pos (by exact_mod_cast h)]; simp

/-- C10: `a.SumSignedRoots(b)` returns the fraction `c` with `ssqrt(c) = ssqrt(a) + ssqrt(b)` whenever the two roots
are commensurable (|a·b| is the square of a rational), and terminates the program otherwise. -/
theorem sumSignedRoots_spec (p p' : Prog) (x y : Rat) (h : p.mathValue = some x) (h' : p'.mathValue = some y)
    (a b : Frac) (ha : p.run = some a) (hb : p'.run = some b) :
    ((∃ r : Rat, r * r = |x * y|) →
      ∃ c, sumSignedRoots a b = .ok (some c) ∧ ssqrt (dval false c) = ssqrt x + ssqrt y) ∧
    ((¬ ∃ r : Rat, r * r = |x * y|) → sumSignedRoots a b = .terminate) := by
  obtain ⟨g, h1, oa⟩ := run_ok p x h
  rw [ha, Option.some.injEq] at h1; subst h1
  obtain ⟨g', h1', ob⟩ := run_ok p' y h'
  rw [hb, Option.some.injEq] at h1'; subst h1'
  have om := mul_ok oa ob
  have os := sqrt_ok om
  constructor
  · intro hsq
    have hflag := os.1.2 hsq
    have o1 := abs_ok oa.getDval
    have o2 := abs_ok ob.getDval
    obtain ⟨s, hs1, hs2, _⟩ := add_ok o1 o2
    obtain ⟨t, ht1, ht2, _⟩ := ofInts_ok 2 1 (by norm_num)
    obtain ⟨r, hr1, hr2, _⟩ := add_ok hs2 (mul_ok ht2 os.2)
    unfold sumSignedRoots
    rw [if_pos hflag]
    simp only [hs1, ht1, Option.bind_some, hr1]
    refine ⟨_, rfl, ?_⟩
    have hval : (((|x| + |y| + ((2 : Int) : Rat) / ((1 : Int) : Rat) * signedSqrtOrSelf (x * y) : Rat)) : Real) = (ssqrt x + ssqrt y) ^ 2 := by
      push_cast
      rw [ssqrt_of_rat _ hsq]
      push_cast
      rw [ssqrt_mul, ← ssqrt_mul_self x, ← ssqrt_mul_self y]; ring
    rw [oa.dval_eq, ob.dval_eq]
    split_ifs with hf
    · rw [(flipSign_ok hr2).dval_eq]
      push_cast at hval ⊢
      rw [hval, ssqrt_neg, show (ssqrt (x:Real) + ssqrt y) ^ 2 = (-(ssqrt (x:Real) + ssqrt y)) ^ 2 by ring, ssqrt_sq]
      · ring
      · have := ssqrt_mono (x := (x : Real)) (y := -(y : Real)) (by linarith)
        rw [ssqrt_neg] at this; linarith
    · rw [hr2.dval_eq]
      push_cast at hval ⊢
      rw [hval, ssqrt_sq]
      by_contra hc
      push Not at hc
      apply hf
      by_contra hc'
      push Not at hc'
      rcases hc'.eq_or_lt with e | e
      · have : (x : Real) = -y := by linarith
        rw [this, ssqrt_neg] at hc; linarith
      · have := ssqrt_mono (x := -(y : Real)) (y := (x : Real)) (by linarith)
        rw [ssqrt_neg] at this; linarith
  · intro hsq
    unfold sumSignedRoots
    rw [if_neg]
    intro hc; exact hsq (os.1.1 hc)

/-- non-vacuity: √8 - √2 = √2, the commensurability hypothesis holds for 8 and -2. -/
example : (∃ r : Rat, r * r = |(8 : Rat) * (-2)|) ∧ (Prog.ofInts 8 1).mathValue = some 8 ∧ (Prog.ofInts 2 (-1)).mathValue = some (-2) :=
  ⟨⟨4, by norm_num⟩, by simp [Prog.mathValue], by simp [Prog.mathValue]; norm_num⟩

/-- C10, equality is sound: fractions that compare equal have equal values. -/
theorem equal_sound (p p' : Prog) (q q' : Rat) (h : p.mathValue = some q) (h' : p'.mathValue = some q')
    (f f' : Frac) (hf : p.run = some f) (hf' : p'.run = some f') (he : equal f f' = true) : q = q' := by
  obtain ⟨g, h1, h2⟩ := run_ok p q h
  rw [hf, Option.some.injEq] at h1; subst h1
  obtain ⟨g', h1', h2'⟩ := run_ok p' q' h'
  rw [hf', Option.some.injEq] at h1'; subst h1'
  unfold equal at he
  split_ifs at he with c1 c2 c3 c4
  · rw [h2.sign_zero_iff.1 c1.1, h2'.sign_zero_iff.1 c1.2]
  · simp only [Bool.and_eq_true, beq_iff_eq] at he
    push Not at c2
    rw [h2.val, h2'.val, he.1, he.2, c2]

private theorem noTrail_half (v : List Nat) (h : NoTrail v) (he : v.any (· % 2 ≠ 0) = false) : NoTrail (v.map (· / 2)) := by
  intro hne
  have hv : v ≠ [] := by simpa using hne
  have hl := h hv
  rw [List.getLast_map]
  · have : v.getLast hv % 2 = 0 := by
      have := List.any_eq_false.1 he _ (List.getLast_mem hv)
      simpa using this
    omega

private theorem run_canon (p : Prog) (hp : p.MulFree) (q : Rat) (h : p.mathValue = some q) (f : Frac)
    (hf : p.run = some f) : Canon f := by
  induction p generalizing q f with
  | one => simp only [Prog.run, Option.some.injEq] at hf; subst hf; exact ⟨noTrail_nil, noTrail_nil⟩
  | ofInts n d =>
    simp only [Prog.mathValue] at h
    split_ifs at h with hd
    obtain ⟨g, h1, _, h3⟩ := ofInts_ok n d hd
    simp only [Prog.run, h1, Option.some.injEq] at hf; subst hf; exact h3
  | ofFactorials N D =>
    obtain ⟨g, h1, _, h3⟩ := ofFactorials_ok N D
    simp only [Prog.run, h1, Option.some.injEq] at hf; subst hf; exact h3
  | mul a b => exact hp.elim
  | add a b =>
    simp only [Prog.mathValue, Option.bind_eq_bind, Option.bind_eq_some_iff, Option.pure_def, Option.some.injEq] at h
    obtain ⟨x, hx, y, hy, rfl⟩ := h
    obtain ⟨f1, h1, h2⟩ := run_ok a x hx
    obtain ⟨f2, h3, h4⟩ := run_ok b y hy
    obtain ⟨r, h5, _, h7⟩ := add_ok h2 h4
    simp only [Prog.run, h1, h3, Option.bind_eq_bind, Option.bind_some, h5, Option.some.injEq] at hf
    subst hf; exact h7
  | invert a ih =>
    simp only [Prog.mathValue, Option.bind_eq_bind, Option.bind_eq_some_iff] at h
    obtain ⟨x, hx, h⟩ := h
    split_ifs at h with h0
    obtain ⟨g, h1, h2⟩ := run_ok a x hx
    have hc := ih hp x hx g h1
    simp only [Prog.run, h1, Option.bind_eq_bind, Option.bind_some, Option.pure_def, Option.some.injEq] at hf
    subst hf
    unfold invert
    split_ifs
    · exact ⟨noTrail_nil, noTrail_nil⟩
    · exact ⟨noTrail_nil, noTrail_nil⟩
    · exact ⟨hc.2, hc.1⟩
  | flipSign a ih =>
    simp only [Prog.mathValue, Option.bind_eq_bind, Option.bind_eq_some_iff, Option.pure_def, Option.some.injEq] at h
    obtain ⟨x, hx, rfl⟩ := h
    obtain ⟨g, h1, _⟩ := run_ok a x hx
    simp only [Prog.run, h1, Option.bind_eq_bind, Option.bind_some, Option.pure_def, Option.some.injEq] at hf
    subst hf; exact ih hp x hx g h1
  | abs a ih =>
    simp only [Prog.mathValue, Option.bind_eq_bind, Option.bind_eq_some_iff, Option.pure_def, Option.some.injEq] at h
    obtain ⟨x, hx, rfl⟩ := h
    obtain ⟨g, h1, _⟩ := run_ok a x hx
    have hc := ih hp x hx g h1
    simp only [Prog.run, h1, Option.bind_eq_bind, Option.bind_some, Option.pure_def, Option.some.injEq] at hf
    subst hf; unfold absF; split_ifs <;> exact hc
  | sqrt a ih =>
    simp only [Prog.mathValue, Option.bind_eq_bind, Option.bind_eq_some_iff, Option.pure_def, Option.some.injEq] at h
    obtain ⟨x, hx, rfl⟩ := h
    obtain ⟨g, h1, _⟩ := run_ok a x hx
    have hc := ih hp x hx g h1
    simp only [Prog.run, h1, Option.bind_eq_bind, Option.bind_some, Option.pure_def, Option.some.injEq] at hf
    subst hf; unfold sqrt
    simp only
    split_ifs with c1 c2 c3 c4
    · exact hc
    · exact hc
    · exact hc
    · exact hc
    · exact ⟨noTrail_half _ hc.1 (by simpa using c3), noTrail_half _ hc.2 (by simpa using c4)⟩
  | readNum a ih =>
    obtain ⟨g, h1, _⟩ := run_ok a q h
    simp only [Prog.run, h1, Option.bind_eq_bind, Option.bind_some, Option.pure_def, Option.some.injEq] at hf
    subst hf; exact ih hp q h g h1
  | readDen a ih =>
    obtain ⟨g, h1, _⟩ := run_ok a q h
    simp only [Prog.run, h1, Option.bind_eq_bind, Option.bind_some, Option.pure_def, Option.some.injEq] at hf
    subst hf; exact ih hp q h g h1
  | readVal a ih =>
    obtain ⟨g, h1, _⟩ := run_ok a q h
    have hc := ih hp q h g h1
    simp only [Prog.run, h1, Option.bind_eq_bind, Option.bind_some, Option.pure_def, Option.some.injEq] at hf
    subst hf; unfold getDval
    split
    · exact hc
    · simp only; split_ifs <;> exact hc

/-- C10, equality is exact for programs that do not use `operator*=`. Missing for the full claim: programs with
`operator*=`; there it is false, see `not_equal_complete`. -/
theorem equal_iff_partial (p p' : Prog) (hp : p.MulFree) (hp' : p'.MulFree) (q q' : Rat)
    (h : p.mathValue = some q) (h' : p'.mathValue = some q')
    (f f' : Frac) (hf : p.run = some f) (hf' : p'.run = some f') : equal f f' = true ↔ q = q' := by
  refine ⟨equal_sound p p' q q' h h' f f' hf hf', ?_⟩
  rintro rfl
  have hc := run_canon p hp q h f hf
  have hc' := run_canon p' hp' q h' f' hf'
  obtain ⟨g, h1, h2⟩ := run_ok p q h
  rw [hf, Option.some.injEq] at h1; subst h1
  obtain ⟨g', h1', h2'⟩ := run_ok p' q h'
  rw [hf', Option.some.injEq] at h1'; subst h1'
  unfold equal
  by_cases hz : q = 0
  · rw [if_pos ⟨h2.sign_zero_iff.2 hz, h2'.sign_zero_iff.2 hz⟩]
  · have hs := (h2.sign_zero_iff.not.2 hz)
    have hs' := (h2'.sign_zero_iff.not.2 hz)
    have ab := abs_val h2 hs
    have ab' := abs_val h2' hs'
    have p1 := number_pos 0 f.den
    have p2 := number_pos 0 f'.den
    have cr := red_coprime 0 _ _ h2.red
    have cr' := red_coprime 0 _ _ h2'.red
    have cross : number 0 f.nom * number 0 f'.den = number 0 f'.nom * number 0 f.den := by
      have : (number 0 f.nom : Rat) / number 0 f.den = (number 0 f'.nom : Rat) / number 0 f'.den := by rw [← ab, ← ab']
      rw [div_eq_div_iff (number_ne _ _) (number_ne _ _)] at this
      exact_mod_cast this
    have hden : number 0 f.den = number 0 f'.den := by
      apply Nat.dvd_antisymm
      · exact cr.symm.dvd_of_dvd_mul_left (Dvd.intro_left _ cross.symm)
      · exact cr'.symm.dvd_of_dvd_mul_left (Dvd.intro_left _ cross)
    have hnom : number 0 f.nom = number 0 f'.nom := by
      rw [hden] at cross; exact Nat.eq_of_mul_eq_mul_right p2 cross
    have en := number_inj 0 _ _ hc.1 hc'.1 hnom
    have ed := number_inj 0 _ _ hc.2 hc'.2 hden
    have es : f.sign = f'.sign := by
      have v := h2.val
      rw [h2'.val, hnom, hden] at v
      have hne : (number 0 f'.nom : Rat) / number 0 f'.den ≠ 0 := div_ne_zero (number_ne _ _) (number_ne _ _)
      rw [mul_div_assoc, mul_div_assoc] at v
      have := mul_right_cancel₀ hne v
      exact_mod_cast this.symm
    rw [if_neg (by simp [hs]), if_neg (by simp [es]), if_neg (by simp [en]), if_neg (by simp [ed])]
    simp [en, ed]

/-- the full claim of C10 about equality -/
def EqualityIsValueEquality : Prop :=
  ∀ (p p' : Prog) (q q' : Rat), p.mathValue = some q → p'.mathValue = some q' →
    ∀ f f', p.run = some f → p'.run = some f' → (equal f f' = true ↔ q = q')

private theorem prime_zero : prime 0 = 2 := Nat.nth_prime_zero_eq_two

private theorem factor_one : factorLoop 0 1 [] = some [] := by rw [factorLoop, if_pos rfl]

private theorem factor_two : factorLoop 0 2 [] = some [1] := by
  obtain ⟨v, h1, h2, h3⟩ := factor_spec 2 [] (by norm_num)
  rw [h1, Option.some.injEq]
  apply number_inj 0 _ _ (h3 noTrail_nil)
  · intro _; simp
  · rw [h2]; simp [number, prime_zero]

/-- Refutation: `TFracNum(2,1) * TFracNum(1,2) == TFracNum(1,1)` is false. -/
theorem not_equal_complete : ¬ EqualityIsValueEquality := by
  intro h
  have e2 : Fraction.ofInts 2 1 = some ⟨[1], [], 1, none, none, none⟩ := by
    simp [Fraction.ofInts, factor_one, factor_two, cancel, removeZeros, List.rdropWhile]
  have e1 : Fraction.ofInts 1 2 = some ⟨[], [1], 1, none, none, none⟩ := by
    simp [Fraction.ofInts, factor_one, factor_two, cancel, removeZeros, List.rdropWhile]
  have e0 : Fraction.ofInts 1 1 = some ⟨[], [], 1, none, none, none⟩ := by
    simp [Fraction.ofInts, factor_one, cancel, removeZeros, List.rdropWhile]
  have := h (.mul (.ofInts 2 1) (.ofInts 1 2)) (.ofInts 1 1) 1 1
    (by simp [Prog.mathValue]) (by simp [Prog.mathValue]) ⟨[0], [0], 1, none, none, none⟩ ⟨[], [], 1, none, none, none⟩
    (by simp [Prog.run, e1, e2, Fraction.mul, addExp, cancel]) (by simp [Prog.run, e0])
  simp [equal] at this

/-- Refutation: after `Dval(true)` the plain `Dval()` of the same number is wrong (4 reads back as 2), and stays wrong. -/
theorem dval_sqrt_poisons : ∃ f, ofInts 4 1 = some f ∧ dval false f = 4 ∧ dval false (getDval true f) = 2 := by
  obtain ⟨f, h1, h2, _⟩ := ofInts_ok 4 1 (by norm_num)
  refine ⟨f, h1, by rw [h2.dval_eq]; norm_num, ?_⟩
  have hv : f.valC = none := by
    unfold ofInts at h1
    obtain ⟨vn, g1, _, _⟩ := factor_spec 4 [] (by norm_num)
    have e4 : Int.toNat 4 = 4 := rfl
    norm_num [factor_one, e4, g1] at h1
    rw [← h1]
  have hs : f.sign ≠ 0 := fun hc => by have := h2.sign_zero_iff.1 hc; norm_num at this
  have hr : (f.sign : Rat) * numerator f / denominator f = 4 := by
    have := h2.val
    have e : (f.sign : Rat) * (numerator f : Rat) = f.sign * (number 0 f.nom : Rat) := by exact_mod_cast h2.sign_num
    rw [e, h2.denominator_eq]; push_cast; rw [← this]; norm_num
  have hpos : f.sign = 1 := by
    unfold ofInts at h1
    obtain ⟨vn, g1, _, _⟩ := factor_spec 4 [] (by norm_num)
    have e4 : Int.toNat 4 = 4 := rfl
    norm_num [factor_one, e4, g1] at h1
    rw [← h1]
  have hd : dval true f = 2 := by
    unfold dval
    rw [hv]
    simp only [if_neg hs, if_true]
    rw [hpos] at hr ⊢
    have hr' : (numerator f : Real) / denominator f = 4 := by
      have : (numerator f : Rat) / denominator f = 4 := by rw [← hr]; push_cast; ring
      exact_mod_cast congrArg (Rat.cast : Rat → Real) this
    rw [hr', show (4 : Real) = 2 ^ 2 by norm_num, Real.sqrt_sq (by norm_num)]; norm_num
  have : (getDval true f).valC = some (dval true f) := by unfold getDval; rw [hv]
  unfold dval
  rw [this, ← hd]

/-- Refutation: flipping the sign of "infinity" (1/0) yields a value that is neither ±1 nor one of the markers, so it is
treated as a finite number. -/
theorem infinity_flip : ∃ f, ofInts 1 0 = some f ∧ (flipSign f).sign = 7777 ∧ dval false (flipSign f) = 7777 := by
  refine ⟨⟨[], [], -7777, none, none, none⟩, by simp [ofInts], by simp [flipSign], ?_⟩
  simp [flipSign, dval, numerator, denominator, number]

/-- Refutation: "infinity" + 1 is the finite number -7776. -/
theorem infinity_add : ∃ f g r, ofInts 1 0 = some f ∧ ofInts 1 1 = some g ∧ add f g = some r ∧ dval false r = -7776 := by
  have e0 : Fraction.ofInts 1 1 = some ⟨[], [], 1, none, none, none⟩ := by
    simp [Fraction.ofInts, factor_one, cancel, removeZeros, List.rdropWhile]
  obtain ⟨r, h1, h2, _⟩ := ofInts_ok (-7776) 1 (by norm_num)
  refine ⟨⟨[], [], -7777, none, none, none⟩, ⟨[], [], 1, none, none, none⟩, r, by simp [ofInts], e0, ?_, ?_⟩
  · rw [← h1]; simp [add, denominator, numerator, number, denomCommonDivisor]
  · rw [h2.dval_eq]; norm_num

/-! ### the factorial prefactors -/

private theorem ok_pow2 (e : Nat) : Ok (ofExponents [e] [] 1) (2 ^ e) :=
  ⟨Or.inl rfl, by simp [ofExponents], trivial, by simp [ofExponents, number, prime_zero], Or.inl rfl, Or.inl rfl, Or.inl rfl⟩

/-- C10: `am0_to_J(J, m, m0)` = 2^m0 (J+m)!(J-m)!/(2J)!. -/
theorem am0ToJ_value (J m m0 : Nat) :
    ∃ f, am0ToJ J m m0 = some f ∧
      dval false f = ((2 ^ m0 * (J + m).factorial * (J - m).factorial / (2 * J).factorial : Rat) : Real) := by
  obtain ⟨f1, h1, h2, _⟩ := ofFactorials_ok (J + m) (2 * J)
  obtain ⟨f2, h3, h4, _⟩ := ofFactorials_ok (J - m) 1
  refine ⟨mul (mul (ofExponents [m0] [] 1) f1) f2, by simp [am0ToJ, h1, h3], ?_⟩
  rw [(mul_ok (mul_ok (ok_pow2 m0) h2) h4).dval_eq]
  congr 1; simp; ring

/-- C10: `c_sub_ell(ℓ)` = 2^ℓ (ℓ!)²/(2ℓ)! for every ℓ (also ℓ = 0). -/
theorem cSubEll_value (l : Nat) :
    ∃ f, cSubEll l = some f ∧
      dval false f = ((2 ^ l * l.factorial * l.factorial / (2 * l).factorial : Rat) : Real) := by
  unfold cSubEll
  split_ifs with h
  · obtain ⟨f, h1, h2, _⟩ := ofInts_ok 1 1 (by norm_num)
    exact ⟨f, h1, by rw [h2.dval_eq, h]; simp⟩
  · obtain ⟨f1, h1, h2, _⟩ := ofFactorials_ok l 1
    obtain ⟨f2, h3, h4, _⟩ := ofFactorials_ok l (2 * l)
    refine ⟨mul (mul (ofExponents [l] [] 1) f1) f2, by simp [h1, h3], ?_⟩
    rw [(mul_ok (mul_ok (ok_pow2 l) h2) h4).dval_eq]
    congr 1; simp; ring

/-- C10: `cm0_sub_ell_2(ℓ, m0)` = 2^(ℓ+m0) ((ℓ!)²/(2ℓ)!)² for ℓ > 0 (and 1 for ℓ = 0). -/
theorem cm0SubEll2_value (l m0 : Nat) (hl : 0 < l) :
    ∃ f, cm0SubEll2 l m0 = some f ∧
      dval false f = ((2 ^ (l + m0) * (l.factorial * l.factorial / (2 * l).factorial) ^ 2 : Rat) : Real) := by
  unfold cm0SubEll2
  rw [if_neg (by omega)]
  obtain ⟨f1, h1, h2, _⟩ := ofFactorials_ok l 1
  obtain ⟨f2, h3, h4, _⟩ := ofFactorials_ok l (2 * l)
  refine ⟨mul (mul (mul (mul (ofExponents [l + m0] [] 1) f1) f1) f2) f2, by simp [h1, h3], ?_⟩
  rw [(mul_ok (mul_ok (mul_ok (mul_ok (ok_pow2 _) h2) h2) h4) h4).dval_eq]
  congr 1; simp; ring

/-! ### the prime table -/

/-- C10: trial division decides primality for every number above 1. -/
theorem isPrimeNumber_iff (n : Nat) (hn : 2 ≤ n) : isPrimeNumber n = true ↔ n.Prime := by
  unfold isPrimeNumber
  split_ifs with h2
  · subst h2; simp [Nat.prime_two]
  · simp only [List.all_eq_true, List.mem_range'_1, decide_eq_true_eq]
    constructor
    · intro h
      rw [Nat.prime_def_le_sqrt]
      refine ⟨hn, fun m hm hle hd => ?_⟩
      exact h m ⟨hm, by omega⟩ (Nat.mod_eq_zero_of_dvd hd)
    · intro hp m hm h0
      have hd := Nat.dvd_of_mod_eq_zero h0
      rcases (Nat.dvd_prime hp).1 hd with h | h
      · omega
      · subst h
        have hs : Nat.sqrt m < m := Nat.sqrt_lt_self (by omega)
        omega

/-- Refutation: 1 is reported to be a prime number. -/
theorem isPrimeNumber_one : isPrimeNumber 1 = true := by decide

private theorem extend_spec (gap : Nat) : ∀ (todo k e : Nat), e % 2 = 1 → prime (k - 1) < e → 1 ≤ k → prime k = e + 2 * gap →
    extendTable (todo + 1) e ((List.range k).map prime) = extendTable todo (prime k + 2) ((List.range (k + 1)).map prime) := by
  induction gap with
  | zero =>
    intro todo k e ho hlt hk he
    simp only [Nat.mul_zero, Nat.add_zero] at he
    rw [extendTable, if_neg (by omega), if_pos]
    · rw [List.range_succ, List.map_append, ← he]; simp
    · rw [isPrimeNumber_iff _ (by have := (prime_prime (k-1)).two_le; omega), ← he]; exact prime_prime k
  | succ g ih =>
    intro todo k e ho hlt hk he
    rw [extendTable, if_neg (by omega), if_neg]
    · exact ih todo k (e + 2) (by omega) (by omega) hk (by omega)
    · rw [isPrimeNumber_iff _ (by have := (prime_prime (k-1)).two_le; omega)]
      intro hp
      obtain ⟨j, rfl⟩ := exists_index hp
      have h1 := prime_strictMono.lt_iff_lt.1 hlt
      have h2 : prime j < prime k := by omega
      have h3 := prime_strictMono.lt_iff_lt.1 h2
      omega

private theorem prime_odd (k : Nat) (h : 1 ≤ k) : prime k % 2 = 1 := by
  rcases (prime_prime k).eq_two_or_odd with h2 | h2
  · have := prime_strictMono (show 0 < k by omega); rw [prime_zero] at this; omega
  · exact h2

private theorem extend_all (todo k e : Nat) (ho : e % 2 = 1) (hlt : prime (k - 1) < e) (hk : 1 ≤ k) (hle : e ≤ prime k) :
    extendTable todo e ((List.range k).map prime) = some ((List.range (k + todo)).map prime) := by
  induction todo generalizing k e with
  | zero => rw [extendTable, if_pos rfl]; rfl
  | succ t ih =>
    have hodd := prime_odd k hk
    have hm := prime_strictMono (show k < k + 1 by omega)
    have ho' := prime_odd (k + 1) (by omega)
    rw [extend_spec ((prime k - e) / 2) t k e ho hlt hk (by omega),
      ih (k + 1) (prime k + 2) (by omega) (by simp) (by omega) (by omega)]
    congr 3; omega

/-- C10: the table of `n+1` entries built by the constructor and by `generatePrimeNumberCache` (start: the prime 2,
candidates 3, 5, 7, …) is finished after finitely many steps and holds exactly the first `n+1` primes in order. -/
theorem primeTable (n : Nat) : extendTable n 3 [2] = some ((List.range (n + 1)).map (Nat.nth Nat.Prime)) := by
  have h := extend_all n 1 3 (by norm_num) (by simp [prime_zero]) (by norm_num) (by
    have h1 := prime_strictMono (show 0 < 1 by norm_num); rw [prime_zero] at h1; omega)
  have e : (List.range 1).map prime = [2] := by simp [List.range_succ, prime_zero]
  rw [e] at h
  rw [h, Nat.add_comm 1 n]; rfl

end Rpwa.Fraction
