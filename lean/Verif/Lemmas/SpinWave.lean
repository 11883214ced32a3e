import Verif.Lemmas.CgRacah
import Verif.Spec.SpinTensor
/-!
# Spin wave functions
-/
namespace Rpwa.SpinTensor
open Fraction CgBox Spec

/-- a helicity -/
def Hel (m : ℤ) : Prop := m = -1 ∨ m = 0 ∨ m = 1

theorem mem_hels {n : ℕ} {l : List ℤ} : l ∈ hels n ↔ l.length = n ∧ ∀ m ∈ l, Hel m := by
  induction n generalizing l with
  | zero =>
    simp only [hels, List.mem_singleton]
    constructor
    · rintro rfl; simp
    · rintro ⟨h, -⟩; exact List.length_eq_zero_iff.mp h
  | succ n ih =>
    simp only [hels, List.mem_flatMap, List.mem_map, ih]
    constructor
    · rintro ⟨m, hm, l', ⟨h1, h2⟩, rfl⟩
      refine ⟨by simp [h1], fun x hx => ?_⟩
      rcases List.mem_append.mp hx with hx | hx
      · exact h2 x hx
      · rw [List.mem_singleton.mp hx]; simpa [Hel] using hm
    · rintro ⟨h1, h2⟩
      have hne : l ≠ [] := by rintro rfl; simp at h1
      refine ⟨l.getLast hne, by simpa [Hel] using h2 _ (List.getLast_mem hne), l.dropLast, ⟨by simp [h1], fun x hx => h2 x (List.mem_of_mem_dropLast hx)⟩,
        List.dropLast_append_getLast hne⟩

theorem hels_nodup (n : ℕ) : (hels n).Nodup := by
  induction n with
  | zero => simp [hels]
  | succ n ih =>
    simp only [hels]
    rw [List.nodup_flatMap]
    refine ⟨fun m _ => ih.map (List.append_left_injective _), ?_⟩
    have h : ∀ a b : ℤ, a ≠ b → List.Disjoint ((hels n).map (· ++ [a])) ((hels n).map (· ++ [b])) := by
      intro a b hab x hx hy
      obtain ⟨l, -, rfl⟩ := List.mem_map.mp hx
      obtain ⟨l', -, e⟩ := List.mem_map.mp hy
      have := congrArg List.getLast? e
      simp at this
      exact hab this.symm
    simp only [List.pairwise_cons, List.mem_cons, List.not_mem_nil, or_false, forall_eq_or_imp, forall_eq, List.Pairwise.nil, and_true,
      IsEmpty.forall_iff, implies_true]
    exact ⟨⟨h (-1) 0 (by decide), h (-1) 1 (by decide)⟩, h 0 1 (by decide)⟩

theorem digits_step (n r : ℕ) (hr : r < 3 ^ n) (d : ℕ) :
    digits (n + 1) ((d * 3 ^ n + r : ℕ) : ℤ) = digits n r ++ [(d : ℤ) - 1] := by
  have e : ((d * 3 ^ n + r : ℕ) : ℤ).tdiv (3 ^ n) = d := by
    rw [show ((3 : ℤ) ^ n) = ((3 ^ n : ℕ) : ℤ) by push_cast; rfl, Int.tdiv_eq_ediv_of_nonneg (by positivity), ← Int.natCast_ediv]
    congr 1
    rw [Nat.mul_comm, Nat.mul_add_div (by positivity), Nat.div_eq_of_lt hr]; rfl
  simp only [digits]
  rw [e]
  congr 2
  push_cast; ring

theorem digits_hels (n : ℕ) : (List.range (3 ^ n)).map (fun k : ℕ => digits n (k : ℤ)) = hels n := by
  induction n with
  | zero => rfl
  | succ n ih =>
    have e : List.range (3 ^ (n + 1)) = (List.range 3).flatMap fun d => (List.range (3 ^ n)).map fun r => d * 3 ^ n + r := by
      rw [pow_succ, Nat.mul_comm, show (3 : ℕ) * 3 ^ n = 3 ^ n + 3 ^ n + 3 ^ n by ring, List.range_add, List.range_add]
      simp [List.range_succ, two_mul, Function.comp_def]
    rw [e, List.map_flatMap]
    simp only [hels]
    rw [show ([-1, 0, 1] : List ℤ) = (List.range 3).map (fun d : ℕ => (d : ℤ) - 1) from rfl, List.flatMap_map]
    congr 1
    funext d
    rw [List.map_map, ← ih, List.map_map]
    refine List.map_congr_left fun r hr => ?_
    exact digits_step n r (List.mem_range.mp hr) d

theorem zeros_eq (l : List ℤ) : zeros l = l.count 0 := by
  unfold zeros
  rw [List.count]

/-- number of terms of a wave function, rational squares -/
def waveSq (J : ℕ) (m : List ℤ) : ℚ :=
  2 ^ (m.count 0) * (J + m.sum).toNat.factorial * (J - m.sum).toNat.factorial / (2 * J).factorial

theorem wave_eq (J : ℕ) (m : List ℤ) : wave J m = Real.sqrt (waveSq J m : ℝ) := by
  unfold wave waveSq; push_cast; rfl

theorem waveSq_pos (J : ℕ) (m : List ℤ) : 0 < waveSq J m := by
  unfold waveSq
  have h1 := (J + m.sum).toNat.factorial_pos
  have h2 := (J - m.sum).toNat.factorial_pos
  have h3 := (2 * J).factorial_pos
  positivity

theorem wave_pos (J : ℕ) (m : List ℤ) : 0 < wave J m := by
  rw [wave_eq]; exact Real.sqrt_pos.mpr (by exact_mod_cast waveSq_pos J m)

theorem ok_two_pow (e : Nat) : Ok (ofExponents [e] [] 1) (2 ^ e) :=
  ⟨Or.inl rfl, by simp [ofExponents], trivial, by simp [ofExponents, number, prime, Nat.nth_prime_zero_eq_two], Or.inl rfl, Or.inl rfl, Or.inl rfl⟩

theorem am0_ok (J : ℕ) (M : ℤ) (m : List ℤ) (hM : m.sum = M) : ∃ f, am0 J M (zeros m) = .ok f ∧ Ok f (waveSq J m) := by
  obtain ⟨f1, h1, h2, _⟩ := ofFactorials_ok (J + M).toNat (2 * J)
  obtain ⟨f2, h3, h4, _⟩ := ofFactorials_ok (J - M).toNat 1
  refine ⟨mul (mul (ofExponents [zeros m] [] 1) f1) f2, by simp [am0, h1, h3, opt], ?_⟩
  have := mul_ok (mul_ok (ok_two_pow (zeros m)) h2) h4
  have e : (2 : ℚ) ^ zeros m * ((J + M).toNat.factorial / (2 * J).factorial) * ((J - M).toNat.factorial / (Nat.factorial 1)) = waveSq J m := by
    unfold waveSq; rw [zeros_eq, hM]; simp; ring
  rwa [e] at this

/-- square of the component of the orbital tensor -/
def orbSq (L : ℕ) (m : List ℤ) : ℚ := if m.sum = 0 then waveSq L m * waveSq L (List.replicate L 0) else 0

theorem cm0_ok (L : ℕ) (m : List ℤ) (hlen : m.length = L) (hM : m.sum = 0) : ∃ f, opt (cm0SubEll2 L (zeros m)) = .ok f ∧ Ok f (orbSq L m) := by
  by_cases hL : L = 0
  · subst hL
    have : m = [] := List.length_eq_zero_iff.mp hlen
    subst this
    obtain ⟨f, h1, h2, _⟩ := ofInts_ok 1 1 (by decide)
    refine ⟨f, by simp [cm0SubEll2, h1, opt], ?_⟩
    have : orbSq 0 [] = ((1 : ℤ) : ℚ) / ((1 : ℤ) : ℚ) := by simp [orbSq, waveSq]
    rwa [this]
  · obtain ⟨f1, h1, h2, _⟩ := ofFactorials_ok L 1
    obtain ⟨f2, h3, h4, _⟩ := ofFactorials_ok L (2 * L)
    refine ⟨mul (mul (mul (mul (ofExponents [L + zeros m] [] 1) f1) f1) f2) f2, by simp [cm0SubEll2, hL, h1, h3, opt], ?_⟩
    have := mul_ok (mul_ok (mul_ok (mul_ok (ok_two_pow (L + zeros m)) h2) h2) h4) h4
    have e : (2 : ℚ) ^ (L + zeros m) * (L.factorial / (Nat.factorial 1)) * (L.factorial / (Nat.factorial 1)) *
        (L.factorial / (2 * L).factorial) * (L.factorial / (2 * L).factorial) = orbSq L m := by
      have h0 : (((2 * L).factorial : ℕ) : ℚ) ≠ 0 := by exact_mod_cast (2 * L).factorial_ne_zero
      unfold orbSq waveSq
      rw [if_pos hM, zeros_eq, hM]
      simp [pow_add]
      ring
    rwa [e] at this

/-- a wave function of the program with components given by `F` -/
def IsWave (F : List ℤ → ℚ) (n : ℕ) (ts : List (List ℤ × ℤ × Frac)) : Prop :=
  List.Forall₂ (fun m x => x.1 = m ∧ x.2.1 = m.sum ∧ Ok x.2.2 (F m)) (hels n) ts

theorem sum_bound {n : ℕ} {l : List ℤ} (h : l ∈ hels n) : -(n : ℤ) ≤ l.sum ∧ l.sum ≤ n := by
  rw [mem_hels] at h
  obtain ⟨h1, h2⟩ := h
  subst h1
  induction l with
  | nil => simp
  | cons x l ih =>
    have := ih fun m hm => h2 m (by simp [hm])
    have hx := h2 x (by simp)
    rw [List.sum_cons, List.length_cons]
    unfold Hel at hx
    push_cast
    omega

theorem mapM_forall₂ {α β γ : Type} {R : γ → α → Prop} {R' : γ → β → Prop} {f : α → Outcome β} {l : List γ} {a : List α}
    (h : List.Forall₂ R l a) (hf : ∀ c ∈ l, ∀ x, R c x → ∃ y, f x = .ok y ∧ R' c y) : ∃ b, a.mapM f = .ok b ∧ List.Forall₂ R' l b := by
  induction h with
  | nil => exact ⟨[], rfl, .nil⟩
  | cons hx ht ih =>
    obtain ⟨y, h1, h2⟩ := hf _ (by simp) _ hx
    obtain ⟨b, h3, h4⟩ := ih fun c hc => hf c (by simp [hc])
    exact ⟨y :: b, by rw [List.mapM_cons, h1, Outcome.ok_bind, h3]; rfl, .cons h2 h4⟩

theorem forall₂_mono {α β : Type} {R R' : α → β → Prop} {l : List α} {u : List β} (h : List.Forall₂ R l u)
    (hi : ∀ a ∈ l, ∀ b, R a b → R' a b) : List.Forall₂ R' l u := by
  induction h with
  | nil => exact .nil
  | cons hx ht ih => exact .cons (hi _ (by simp) _ hx) (ih fun a ha => hi a (by simp [ha]))

theorem mkWave_gen (J : ℕ) (type : Char) (F : List ℤ → ℚ)
    (hset : ∀ m ∈ hels J, ∀ c : Frac, ∃ y, setCoeff J type m.sum (m, m.sum, c) = .ok (m, m.sum, y) ∧ (Ok c 0 → Ok y (F m)))
    (hskip : ∀ m ∈ hels J, ∀ (c : Frac) (MM : ℤ), MM ≠ m.sum → setCoeff J type MM (m, m.sum, c) = .ok (m, m.sum, c)) :
    ∃ ts, mkWave J type = .ok ⟨J, type, ts⟩ ∧ IsWave F J ts := by
  unfold mkWave
  dsimp only
  have hmap : ((List.range (2 * J + 1)).map fun k : ℕ => (J : ℤ) - k).foldlM
      (fun t MM => t.mapM (setCoeff J type MM)) ((List.range (3 ^ J)).map fun pzm : ℕ =>
        (digits J pzm, (digits J pzm).foldr (· + ·) 0, zero)) =
      (List.range (2 * J + 1)).foldlM (fun t (k : ℕ) => t.mapM (setCoeff J type ((J : ℤ) - k))) ((List.range (3 ^ J)).map fun pzm : ℕ =>
        (digits J pzm, (digits J pzm).foldr (· + ·) 0, zero)) := by
    rw [List.foldlM_map]
  obtain ⟨ts, h1, h2⟩ := foldlM_range (fun t (k : ℕ) => t.mapM (setCoeff J type ((J : ℤ) - k))) (2 * J + 1)
    (fun k ts => List.Forall₂ (fun (m : List ℤ) (x : List ℤ × ℤ × Frac) => x.1 = m ∧ x.2.1 = m.sum ∧
      Ok x.2.2 (if (J : ℤ) - k < m.sum then F m else 0)) (hels J) ts)
    ((List.range (3 ^ J)).map fun pzm : ℕ => (digits J pzm, (digits J pzm).foldr (· + ·) 0, zero))
    (by
      rw [← digits_hels, List.forall₂_map_left_iff, List.forall₂_map_right_iff, List.forall₂_same]
      intro k hk
      refine ⟨rfl, rfl, ?_⟩
      have hb := sum_bound (n := J) (l := digits J k) (by rw [← digits_hels]; exact List.mem_map_of_mem hk)
      rw [if_neg (by omega)]
      exact ok_zero)
    (by
      intro k hk ts hts
      refine mapM_forall₂ hts fun m hm x hx => ?_
      obtain ⟨e1, e2, e3⟩ := hx
      obtain ⟨x1, x2, x3⟩ := x
      dsimp only at e1 e2 e3
      subst e1; subst e2
      by_cases hc : (J : ℤ) - k = x1.sum
      · obtain ⟨y, h1, h2⟩ := hset x1 hm x3
        rw [if_neg (by omega)] at e3
        refine ⟨_, by rw [hc]; exact h1, rfl, rfl, ?_⟩
        rw [if_pos (by omega)]; exact h2 e3
      · refine ⟨_, hskip x1 hm x3 _ hc, rfl, rfl, ?_⟩
        by_cases hd : (J : ℤ) - k < x1.sum
        · rw [if_pos (by omega)]; rwa [if_pos hd] at e3
        · rw [if_neg (by omega)]; rwa [if_neg hd] at e3)
  refine ⟨ts, ?_, ?_⟩
  · refine (congrArg (fun z => z >>= fun terms => (pure ⟨J, type, terms⟩ : Outcome Wave)) (hmap.trans h1)).trans ?_
    rfl
  · unfold IsWave
    refine forall₂_mono h2 fun m hm x hx => ⟨hx.1, hx.2.1, ?_⟩
    have hb := sum_bound hm
    have := hx.2.2
    rwa [if_pos (by push_cast; omega)] at this

theorem mkWave_spin (J : ℕ) (type : Char) (ht : type = 's' ∨ type = 'c') : ∃ ts, mkWave J type = .ok ⟨J, type, ts⟩ ∧ IsWave (waveSq J) J ts := by
  have hl : type ≠ 'l' := by rcases ht with rfl | rfl <;> decide
  refine mkWave_gen J type (waveSq J) ?_ ?_
  · intro m _ c
    obtain ⟨f, h1, h2⟩ := am0_ok J m.sum m rfl
    refine ⟨f, ?_, fun _ => h2⟩
    unfold setCoeff
    rw [if_pos (Or.inl ⟨ht, rfl⟩)]
    simp [ht, hl, h1]
  · intro m _ c MM hne
    unfold setCoeff
    rw [if_neg (by rintro (⟨-, h⟩ | ⟨h, -⟩); exacts [hne h.symm, hl h])]

theorem mkWave_orb (L : ℕ) : ∃ ts, mkWave L 'l' = .ok ⟨L, 'l', ts⟩ ∧ IsWave (orbSq L) L ts := by
  refine mkWave_gen L 'l' (orbSq L) ?_ ?_
  · intro m hm c
    by_cases h0 : m.sum = 0
    · obtain ⟨f, h1, h2⟩ := cm0_ok L m (mem_hels.mp hm).1 h0
      refine ⟨f, ?_, fun _ => h2⟩
      unfold setCoeff
      rw [if_pos (Or.inr ⟨rfl, rfl, h0⟩)]
      simp [h1]
    · refine ⟨c, ?_, fun hc => ?_⟩
      · unfold setCoeff
        rw [if_neg (by rintro (⟨h | h, -⟩ | ⟨-, -, h⟩); exacts [absurd h (by decide), absurd h (by decide), h0 h])]
      · unfold orbSq; rw [if_neg h0]; exact hc
  · intro m _ c MM hne
    unfold setCoeff
    rw [if_neg (by rintro (⟨-, h⟩ | ⟨-, h, -⟩); exacts [hne h.symm, hne h.symm])]

end Rpwa.SpinTensor
