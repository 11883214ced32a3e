import Verif.Model.Fraction
import Mathlib.Data.Nat.Factorial.Basic
import Mathlib.Data.Rat.Sqrt
import Mathlib.NumberTheory.PrimeCounting
import Mathlib.Data.Nat.Factorization.Basic
import Mathlib.Tactic
namespace Rpwa.Fraction

theorem prime_prime (i : Nat) : (prime i).Prime := Nat.prime_nth_prime i
theorem prime_pos (i : Nat) : 0 < prime i := (prime_prime i).pos
theorem prime_strictMono : StrictMono prime := Nat.nth_strictMono Nat.infinite_setOfPred_prime
theorem prime_inj {i j : Nat} (h : prime i = prime j) : i = j := prime_strictMono.injective h
theorem exists_index {q : Nat} (hq : q.Prime) : ∃ j, prime j = q := by
  have := Nat.range_nth_of_infinite Nat.infinite_setOfPred_prime
  have h : q ∈ Set.range (Nat.nth Nat.Prime) := by rw [this]; exact hq
  exact h

theorem number_pos (k : Nat) (v : List Nat) : 0 < number k v := by
  induction v generalizing k with
  | nil => simp [number]
  | cons e es ih => simp only [number]; exact Nat.mul_pos (Nat.pow_pos (prime_pos k)) (ih _)

theorem number_replicate (k n : Nat) : number k (List.replicate n 0) = 1 := by
  induction n generalizing k with
  | zero => simp [number]
  | succ n ih => simp [List.replicate_succ, number, ih]

theorem bump_nil_zero : bump [] 0 = [1] := by simp [bump]
theorem bump_nil_succ (i : Nat) : bump [] (i + 1) = 0 :: bump [] i := by
  simp [bump, List.replicate_succ]
theorem bump_cons_zero (a : Nat) (v : List Nat) : bump (a :: v) 0 = (a + 1) :: v := by simp [bump]
theorem bump_cons_succ (a : Nat) (v : List Nat) (i : Nat) : bump (a :: v) (i + 1) = a :: bump v i := by
  unfold bump
  by_cases h : i ≥ v.length
  · rw [if_pos h, if_pos (by simpa using h)]
    have : i + 1 + 1 - (a :: v).length = i + 1 - v.length := by simp
    rw [this]; simp
  · rw [if_neg h, if_neg (by simpa using h)]; simp

theorem number_bump (k : Nat) (v : List Nat) (i : Nat) :
    number k (bump v i) = number k v * prime (k + i) := by
  induction v generalizing k i with
  | nil =>
    induction i generalizing k with
    | zero => simp [bump_nil_zero, number]
    | succ i ih => rw [bump_nil_succ]; simp only [number, pow_zero, one_mul]; rw [ih]; simp [number]; congr 1; omega
  | cons a v ih =>
    cases i with
    | zero => rw [bump_cons_zero]; simp only [number]; rw [pow_succ]; simp; ring
    | succ i => rw [bump_cons_succ]; simp only [number]; rw [ih]; rw [show k + 1 + i = k + (i + 1) by omega]; ring

/-- no trailing zero -/
def NoTrail (v : List Nat) : Prop := ∀ h : v ≠ [], v.getLast h ≠ 0

theorem noTrail_nil : NoTrail [] := fun h => absurd rfl h

theorem bump_ne_nil (v : List Nat) (i : Nat) : bump v i ≠ [] := by
  cases v with
  | nil => cases i with
    | zero => simp [bump_nil_zero]
    | succ i => simp [bump_nil_succ]
  | cons a v => cases i with
    | zero => simp [bump_cons_zero]
    | succ i => simp [bump_cons_succ]

theorem noTrail_bump (v : List Nat) (i : Nat) (h : NoTrail v) : NoTrail (bump v i) := by
  induction v generalizing i with
  | nil =>
    clear h
    induction i with
    | zero => rw [bump_nil_zero]; intro _; simp
    | succ i ih => rw [bump_nil_succ]; intro _; rw [List.getLast_cons (bump_ne_nil _ _)]; exact ih _
  | cons a v ih =>
    cases i with
    | zero =>
      rw [bump_cons_zero]; intro _
      cases v with
      | nil => simp
      | cons b v => have := h (by simp); simpa using this
    | succ i =>
      rw [bump_cons_succ]; intro _; rw [List.getLast_cons (bump_ne_nil _ _)]
      apply ih
      intro hv
      have := h (by simp)
      rwa [List.getLast_cons hv] at this

/-- one step / final step of the inner loop, total correctness -/
theorem inner_spec (p i : Nat) (hp : p.Prime) (hpi : prime i = p) (rest : Nat) (hr : 0 < rest) (v : List Nat) :
    ∃ r' v', inner p i rest v = some (r', v') ∧ 0 < r' ∧ r' ∣ rest ∧ ¬ p ∣ r' ∧
      number 0 v' * r' = number 0 v * rest ∧ (NoTrail v → NoTrail v') := by
  induction rest using Nat.strong_induction_on generalizing v with
  | _ rest ih =>
    rw [inner]
    by_cases h : rest % p = 0
    · rw [if_pos h]
      have hd : p ∣ rest := Nat.dvd_of_mod_eq_zero h
      obtain ⟨c, rfl⟩ := hd
      have hc : 0 < c := Nat.pos_of_mul_pos_left hr
      have e : p * c / p = c := Nat.mul_div_cancel_left _ hp.pos
      rw [e]
      have hlt : c < p * c := by nlinarith [hp.two_le]
      obtain ⟨r', v', h1, h2, h3, h4, h5, h6⟩ := ih c hlt hc (bump v i)
      refine ⟨r', v', h1, h2, h3.trans (Dvd.intro_left _ rfl), h4, ?_, fun hv => h6 (noTrail_bump _ _ hv)⟩
      rw [h5, number_bump, Nat.zero_add, hpi]; ring
    · rw [if_neg h]
      exact ⟨rest, v, rfl, hr, dvd_rfl, fun hd => h (Nat.mod_eq_zero_of_dvd hd), rfl, id⟩

theorem factorLoop_spec (n i rest : Nat) (v : List Nat) (hr : 0 < rest)
    (hlo : ∀ j < i, ¬ prime j ∣ rest) (hhi : ∀ j, prime j ∣ rest → j < i + n) :
    ∃ v', factorLoop i rest v = some v' ∧ number 0 v' = number 0 v * rest ∧ (NoTrail v → NoTrail v') := by
  induction n generalizing i rest v with
  | zero =>
    have : rest = 1 := by
      by_contra h
      obtain ⟨q, hq, hd⟩ := Nat.exists_prime_and_dvd h
      obtain ⟨j, rfl⟩ := exists_index hq
      have := hhi j hd
      exact hlo j (by omega) hd
    subst this
    rw [factorLoop, if_pos rfl]
    exact ⟨v, rfl, by simp, id⟩
  | succ n ih =>
    rw [factorLoop]
    by_cases h1 : rest = 1
    · subst h1; rw [if_pos rfl]; exact ⟨v, rfl, by simp, id⟩
    · rw [if_neg h1]
      obtain ⟨r', v', e, h2, h3, h4, h5, h6⟩ := inner_spec (prime i) i (prime_prime i) rfl rest hr v
      rw [e]
      obtain ⟨v'', e', h7, h8⟩ := ih (i + 1) r' v' h2
        (by
          intro j hj hd
          rcases Nat.lt_succ_iff_lt_or_eq.1 hj with h | h
          · exact hlo j h (hd.trans h3)
          · subst h; exact h4 hd)
        (by intro j hd; have := hhi j (hd.trans h3); omega)
      refine ⟨v'', e', ?_, fun hv => h8 (h6 hv)⟩
      rw [h7, h5]

theorem factor_spec (rest : Nat) (v : List Nat) (hr : 0 < rest) :
    ∃ v', factorLoop 0 rest v = some v' ∧ number 0 v' = number 0 v * rest ∧ (NoTrail v → NoTrail v') := by
  apply factorLoop_spec rest 0 rest v hr (by simp)
  intro j hd
  have h1 : j + 2 ≤ prime j := Nat.add_two_le_nth_prime j
  have := Nat.le_of_dvd hr hd
  omega

theorem cancel_value (k : Nat) (a b : List Nat) :
    number k (cancel a b).1 * number k b = number k a * number k (cancel a b).2 := by
  induction a generalizing k b with
  | nil => cases b <;> simp [cancel]
  | cons x xs ih =>
    cases b with
    | nil => simp [cancel]
    | cons y ys =>
      have e := ih (k + 1) ys
      simp only [cancel]
      split_ifs with h h'
      · simp only [number]
        have e2 : prime k ^ y = prime k ^ x * prime k ^ (y - x) := by rw [← pow_add]; congr 1; omega
        rw [e2, pow_zero]; linear_combination (prime k ^ x * prime k ^ (y - x)) * e
      · simp only [number]
        have e2 : prime k ^ x = prime k ^ y * prime k ^ (x - y) := by rw [← pow_add]; congr 1; omega
        rw [e2, pow_zero]; linear_combination (prime k ^ y * prime k ^ (x - y)) * e
      · simp only [number]
        linear_combination (prime k ^ x * prime k ^ y) * e

/-- exponent vectors of coprime numbers: at each prime one of the two exponents vanishes -/
def Red : List Nat → List Nat → Prop
  | a :: as, b :: bs => (a = 0 ∨ b = 0) ∧ Red as bs
  | _, _ => True

theorem cancel_red (a b : List Nat) : Red (cancel a b).1 (cancel a b).2 := by
  induction a generalizing b with
  | nil => cases b <;> simp [cancel, Red]
  | cons x xs ih =>
    cases b with
    | nil => simp [cancel, Red]
    | cons y ys =>
      simp only [cancel]
      split_ifs with h h'
      · exact ⟨Or.inl rfl, ih ys⟩
      · exact ⟨Or.inr rfl, ih ys⟩
      · exact ⟨by by_contra hc; push Not at hc; exact h hc, ih ys⟩

theorem red_symm (a b : List Nat) (h : Red a b) : Red b a := by
  induction a generalizing b with
  | nil => cases b <;> trivial
  | cons x xs ih =>
    cases b with
    | nil => trivial
    | cons y ys => exact ⟨h.1.symm, ih _ h.2⟩

theorem red_nil_right (a : List Nat) : Red a [] := by cases a <;> trivial
theorem red_nil_left (a : List Nat) : Red [] a := by cases a <;> trivial

theorem red_append_zero_left (a b : List Nat) (n : Nat) (h : Red (a ++ List.replicate n 0) b) : Red a b := by
  induction a generalizing b with
  | nil => exact red_nil_left b
  | cons x xs ih =>
    cases b with
    | nil => trivial
    | cons y ys => exact ⟨h.1, ih _ h.2⟩

theorem removeZeros_spec (v : List Nat) : ∃ n, v = removeZeros v ++ List.replicate n 0 := by
  refine ⟨(v.rtakeWhile (· = 0)).length, ?_⟩
  have h := List.rdropWhile_append_rtakeWhile (p := fun x : Nat => decide (x = 0)) (l := v)
  have h2 : v.rtakeWhile (fun x : Nat => decide (x = 0)) = List.replicate (v.rtakeWhile (fun x : Nat => decide (x = 0))).length 0 := by
    rw [List.eq_replicate_iff]
    refine ⟨rfl, fun b hb => ?_⟩
    have := List.mem_rtakeWhile_imp hb
    simpa using this
  conv_lhs => rw [← h]
  rw [removeZeros, ← h2]

theorem noTrail_removeZeros (v : List Nat) : NoTrail (removeZeros v) := by
  intro h
  have := List.rdropWhile_last_not (p := fun x : Nat => decide (x = 0)) v h
  simpa [removeZeros] using this

theorem number_append_zeros (k : Nat) (v : List Nat) (n : Nat) :
    number k (v ++ List.replicate n 0) = number k v := by
  induction v generalizing k with
  | nil => simpa [number] using number_replicate k n
  | cons a v ih => simp [number, ih]

theorem number_removeZeros (k : Nat) (v : List Nat) : number k (removeZeros v) = number k v := by
  obtain ⟨n, hn⟩ := removeZeros_spec v
  conv_rhs => rw [hn]
  rw [number_append_zeros]

theorem number_addExp (k : Nat) (a b : List Nat) : number k (addExp a b) = number k a * number k b := by
  induction a generalizing k b with
  | nil => cases b <;> simp [addExp, number]
  | cons x xs ih =>
    cases b with
    | nil => simp [addExp, number]
    | cons y ys => simp only [addExp, number, ih, pow_add]; ring

theorem cdiv_dvd_left (k : Nat) (a b : List Nat) : denomCommonDivisor k a b ∣ number k a := by
  induction a generalizing k b with
  | nil => cases b <;> simp [denomCommonDivisor]
  | cons x xs ih =>
    cases b with
    | nil => simp [denomCommonDivisor]
    | cons y ys =>
      simp only [denomCommonDivisor, number]
      refine Nat.mul_dvd_mul (Nat.pow_dvd_pow _ ?_) (ih _ _)
      split_ifs <;> omega

theorem cdiv_dvd_right (k : Nat) (a b : List Nat) : denomCommonDivisor k a b ∣ number k b := by
  induction a generalizing k b with
  | nil => cases b <;> simp [denomCommonDivisor]
  | cons x xs ih =>
    cases b with
    | nil => simp [denomCommonDivisor]
    | cons y ys =>
      simp only [denomCommonDivisor, number]
      refine Nat.mul_dvd_mul (Nat.pow_dvd_pow _ ?_) (ih _ _)
      split_ifs <;> omega

theorem prime_not_dvd_number (j k : Nat) (v : List Nat) (h : j < k) : ¬ prime j ∣ number k v := by
  induction v generalizing k with
  | nil => simpa [number] using (prime_prime j).one_lt.ne'
  | cons e es ih =>
    simp only [number]
    intro hd
    rcases (prime_prime j).dvd_mul.1 hd with h1 | h1
    · have := (Nat.prime_dvd_prime_iff_eq (prime_prime j) (prime_prime k)).1 ((prime_prime j).dvd_of_dvd_pow h1)
      have := prime_inj this; omega
    · exact ih (k + 1) (by omega) h1

/-- unique factorisation: vectors without trailing zeros are determined by the number -/
theorem number_inj (k : Nat) (a b : List Nat) (ha : NoTrail a) (hb : NoTrail b)
    (h : number k a = number k b) : a = b := by
  have tail : ∀ {x : Nat} {xs : List Nat}, NoTrail (x :: xs) → NoTrail xs := by
    intro x xs hx hne
    have := hx (by simp)
    rwa [List.getLast_cons hne] at this
  have one : ∀ (k : Nat) (v : List Nat), NoTrail v → number k v = 1 → v = [] := by
    intro k v hv
    induction v generalizing k with
    | nil => intro _; rfl
    | cons x xs ih =>
      intro h1
      simp only [number] at h1
      have hx : prime k ^ x = 1 ∧ number (k + 1) xs = 1 := ⟨Nat.eq_one_of_mul_eq_one_right h1, Nat.eq_one_of_mul_eq_one_left h1⟩
      have hxs := ih (k + 1) (tail hv) hx.2
      subst hxs
      have := hv (by simp)
      simp only [List.getLast_singleton] at this
      have h3 := (Nat.pow_eq_one).1 hx.1
      rcases h3 with h3 | h3
      · exact absurd h3 (prime_prime k).one_lt.ne'
      · exact absurd h3 this
  induction a generalizing k b with
  | nil => exact (one k b hb (by simpa [number] using h.symm)).symm
  | cons x xs ih =>
    cases b with
    | nil => exact one k _ ha (by simpa [number] using h)
    | cons y ys =>
      simp only [number] at h
      have hx : x = y := by
        have f : ∀ e n, ¬ prime k ∣ n → 0 < n → (prime k ^ e * n).factorization (prime k) = e := by
          intro e n hn hpos
          rw [Nat.factorization_mul (Nat.pow_pos (prime_pos k)).ne' hpos.ne', (prime_prime k).factorization_pow]
          simp [Nat.factorization_eq_zero_of_not_dvd hn]
        have h1 := f x _ (prime_not_dvd_number k (k+1) xs (by omega)) (number_pos _ _)
        have h2 := f y _ (prime_not_dvd_number k (k+1) ys (by omega)) (number_pos _ _)
        rw [← h1, h, h2]
      subst hx
      have h' := Nat.eq_of_mul_eq_mul_left (Nat.pow_pos (prime_pos k)) h
      rw [ih (k + 1) ys (tail ha) (tail hb) h']

theorem red_coprime (k : Nat) (a b : List Nat) (h : Red a b) : Nat.Coprime (number k a) (number k b) := by
  have hlt : ∀ (i k : Nat) (v : List Nat) (e : Nat), i < k → Nat.Coprime (prime i ^ e) (number k v) := fun i k v e hik =>
    Nat.Coprime.pow_left _ ((Nat.Prime.coprime_iff_not_dvd (prime_prime i)).2 (prime_not_dvd_number i k v hik))
  induction a generalizing k b with
  | nil => simp [number]
  | cons x xs ih =>
    cases b with
    | nil => simp [number]
    | cons y ys =>
      simp only [number]
      have h1 := ih (k + 1) ys h.2
      have h2 := hlt k (k+1) ys x (by omega)
      have h3 := hlt k (k+1) xs y (by omega)
      rcases h.1 with rfl | rfl
      · simp only [pow_zero, one_mul]
        exact Nat.Coprime.mul_right h3.symm h1
      · simp only [pow_zero, one_mul]
        exact Nat.Coprime.mul_left h2 h1

/-- square criterion -/
theorem number_sq (k : Nat) (v : List Nat) (h : v.any (· % 2 ≠ 0) = false) :
    number k v = number k (v.map (· / 2)) ^ 2 := by
  induction v generalizing k with
  | nil => simp [number]
  | cons e es ih =>
    simp only [List.any_cons, Bool.or_eq_false_iff] at h
    have he : e % 2 = 0 := by simpa using h.1
    simp only [List.map_cons, number]
    rw [ih (k + 1) h.2, mul_pow, ← pow_mul, Nat.div_mul_cancel (Nat.dvd_of_mod_eq_zero he)]

theorem number_not_sq (k : Nat) (v : List Nat) (h : v.any (· % 2 ≠ 0) = true) (m : Nat) :
    number k v ≠ m ^ 2 := by
  induction v generalizing k m with
  | nil => simp at h
  | cons e es ih =>
    intro heq
    have hm : m ≠ 0 := by
      rintro rfl
      have := number_pos k (e :: es); rw [heq] at this; simp at this
    simp only [number] at heq
    have hpar : e % 2 = 0 := by
      have h1 : (prime k ^ e * number (k + 1) es).factorization (prime k) = e := by
        rw [Nat.factorization_mul (Nat.pow_pos (prime_pos k)).ne' (number_pos _ _).ne', (prime_prime k).factorization_pow]
        simp [Nat.factorization_eq_zero_of_not_dvd (prime_not_dvd_number k (k+1) es (by omega))]
      rw [heq, Nat.factorization_pow] at h1
      simp at h1
      omega
    have h' : es.any (· % 2 ≠ 0) = true := by
      simp only [List.any_cons, Bool.or_eq_true] at h
      rcases h with h | h
      · simp at h; omega
      · exact h
    -- m = prime^(e/2) * m'
    have hd : prime k ^ (e / 2) ∣ m := by
      rw [← Nat.pow_dvd_pow_iff (n := 2) (by norm_num), ← heq, ← pow_mul, Nat.div_mul_cancel (Nat.dvd_of_mod_eq_zero hpar)]
      exact Dvd.intro _ rfl
    obtain ⟨c, rfl⟩ := hd
    apply ih (k + 1) h' c
    have : prime k ^ e * number (k + 1) es = prime k ^ e * c ^ 2 := by
      rw [heq, mul_pow, ← pow_mul, Nat.div_mul_cancel (Nat.dvd_of_mod_eq_zero hpar)]
    exact Nat.eq_of_mul_eq_mul_left (Nat.pow_pos (prime_pos k)) this

end Rpwa.Fraction
