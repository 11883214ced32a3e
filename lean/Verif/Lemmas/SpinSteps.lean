import Verif.Lemmas.SpinWave
import Verif.Lemmas.SpinVec
/-!
# Contractions of single terms
-/
namespace Rpwa.SpinTensor
open Fraction CgBox Spec

theorem equal_zero {f : Frac} {q : ℚ} (h : Ok f q) : equal f zero = true ↔ q = 0 := by
  rw [← h.sign_zero_iff]
  unfold equal
  by_cases hs : f.sign = 0
  · simp [hs, zero]
  · simp [hs, zero]

theorem nonzero_iff {t : Term} {q : ℚ} (h : Ok t.pre q) : isNonZero t = true ↔ q ≠ 0 := by
  unfold isNonZero
  rw [Bool.not_eq_true', ← Bool.not_eq_true, equal_zero h]

/-- value of a pair of helicities without the Lorentz factor -/
def pk (conj : Bool) (x y : ℤ) : ℤ :=
  if conj then (if x = y then 1 else 0) else if x + y = 0 then (if x = 0 then 1 else -1) else 0

def pks (conj : Bool) (u v : List ℤ) : ℤ := (List.zipWith (pk conj) u v).prod

/-- pairs of zeros -/
def cnt (u v : List ℤ) : ℕ := (List.zipWith (fun x y : ℤ => if x = 0 ∧ y = 0 then 1 else 0) u v).sum

/-- what the inner contraction takes for a pair -/
def pin (x y : ℤ) : ℤ := if x + y = 0 ∧ x ≠ 0 then -1 else 1

def pins (u v : List ℤ) : ℤ := (List.zipWith pin u v).prod

/-- the number returned by the inner contraction -/
def lastOk : ℕ → List ℤ → List ℤ → ℤ → ℤ
  | 0, _, _, r => r
  | n + 1, x, y, _ => lastOk n x.tail y.tail (if x.headD 0 + y.headD 0 = 0 then 1 else 0)

@[simp] theorem pks_nil (c : Bool) (v : List ℤ) : pks c [] v = 1 := rfl
@[simp] theorem cnt_nil (v : List ℤ) : cnt [] v = 0 := rfl
@[simp] theorem pins_nil (v : List ℤ) : pins [] v = 1 := rfl
@[simp] theorem pks_cons (c : Bool) (x y : ℤ) (u v : List ℤ) : pks c (x :: u) (y :: v) = pk c x y * pks c u v := by simp [pks]
@[simp] theorem cnt_cons (x y : ℤ) (u v : List ℤ) : cnt (x :: u) (y :: v) = (if x = 0 ∧ y = 0 then 1 else 0) + cnt u v := by simp [cnt]
@[simp] theorem pins_cons (x y : ℤ) (u v : List ℤ) : pins (x :: u) (y :: v) = pin x y * pins u v := by simp [pins]

theorem innerStep_ok (x y : ℤ) (u v : List ℤ) (hx : Hel x) (hy : Hel y) (t : Term) (r0 : ℤ) (q : ℚ) (ho : t.ome = (x :: u).reverse)
    (he : t.eps = (y :: v).reverse) (hq : Ok t.pre q) :
    ∃ t', innerStep (t, r0) = .ok (t', if x + y = 0 then 1 else 0) ∧ t'.ome = u.reverse ∧ t'.eps = v.reverse ∧ t'.chi = t.chi ∧ t'.phi = t.phi ∧
      t'.gamS = t.gamS + (if x = 0 ∧ y = 0 then 1 else 0 : ℕ) ∧ t'.gamSig = t.gamSig + (if x = 0 ∧ y = 0 then 1 else 0 : ℕ) ∧
      Ok t'.pre (pin x y * q) := by
  have e1 : t.ome.getLast? = some x := by rw [ho]; simp
  have e2 : t.eps.getLast? = some y := by rw [he]; simp
  have e3 : t.ome.dropLast = u.reverse := by rw [ho]; simp
  have e4 : t.eps.dropLast = v.reverse := by rw [he]; simp
  unfold innerStep
  simp only [e1, e2]
  by_cases h1 : (x = 1 ∧ y = -1) ∨ (x = -1 ∧ y = 1)
  · rw [if_pos h1]
    have hz : x + y = 0 := by omega
    rw [if_pos hz]
    refine ⟨_, rfl, e3, e4, rfl, rfl, ?_, ?_, ?_⟩
    · rw [if_neg (by omega)]; simp
    · rw [if_neg (by omega)]; simp
    · have : ((pin x y : ℤ) : ℚ) * q = -q := by unfold pin; rw [if_pos (by omega)]; simp
      rw [this]; exact flipSign_ok hq
  · rw [if_neg h1]
    by_cases h2 : x = 0 ∧ y = 0
    · rw [if_pos h2]
      have hz : x + y = 0 := by omega
      rw [if_pos hz]
      refine ⟨_, rfl, e3, e4, rfl, rfl, ?_, ?_, ?_⟩
      · rw [if_pos h2]; simp
      · rw [if_pos h2]; simp
      · have : ((pin x y : ℤ) : ℚ) * q = q := by unfold pin; rw [if_neg (by omega)]; simp
        rw [this]; exact hq
    · rw [if_neg h2]
      unfold Hel at hx hy
      have hz : ¬ (x + y = 0) := by omega
      rw [if_neg hz]
      refine ⟨_, rfl, e3, e4, rfl, rfl, ?_, ?_, ?_⟩
      · rw [if_neg h2]; simp
      · rw [if_neg h2]; simp
      · have : ((pin x y : ℤ) : ℚ) * q = q := by unfold pin; rw [if_neg (by omega)]; simp
        rw [this]; exact hq

theorem inner_ok (n : ℕ) : ∀ (x y : List ℤ) (t : Term) (r0 : ℤ) (q : ℚ), n ≤ x.length → n ≤ y.length → (∀ m ∈ x, Hel m) → (∀ m ∈ y, Hel m) →
    t.ome = x.reverse → t.eps = y.reverse → Ok t.pre q →
    ∃ t', times innerStep n (t, r0) = .ok (t', lastOk n x y r0) ∧ t'.ome = (x.drop n).reverse ∧ t'.eps = (y.drop n).reverse ∧
      t'.chi = t.chi ∧ t'.phi = t.phi ∧ t'.gamS = t.gamS + (cnt (x.take n) (y.take n) : ℕ) ∧
      t'.gamSig = t.gamSig + (cnt (x.take n) (y.take n) : ℕ) ∧ Ok t'.pre (pins (x.take n) (y.take n) * q) := by
  induction n with
  | zero =>
    intro x y t r0 q _ _ _ _ ho he hq
    exact ⟨t, rfl, by simpa using ho, by simpa using he, rfl, rfl, by simp, by simp, by simpa using hq⟩
  | succ n ih =>
    intro x y t r0 q hx hy hhx hhy ho he hq
    match x, y with
    | [], _ => simp at hx
    | _ :: _, [] => simp at hy
    | a :: x, b :: y =>
      obtain ⟨t1, h1, h2, h3, h4, h5, h6, h7, h8⟩ := innerStep_ok a b x y (hhx a (by simp)) (hhy b (by simp)) t r0 q ho he hq
      obtain ⟨t', g1, g2, g3, g4, g5, g6, g7, g8⟩ := ih x y t1 (if a + b = 0 then 1 else 0) _ (by simpa using hx) (by simpa using hy)
        (fun m hm => hhx m (by simp [hm])) (fun m hm => hhy m (by simp [hm])) h2 h3 h8
      refine ⟨t', ?_, g2, g3, g4.trans h4, g5.trans h5, ?_, ?_, ?_⟩
      · show (innerStep (t, r0) >>= fun y => times innerStep n y) = _
        rw [h1, Outcome.ok_bind, g1]; rfl
      · rw [g6, h6]; simp only [List.take_succ_cons, cnt_cons]; push_cast; ring
      · rw [g7, h7]; simp only [List.take_succ_cons, cnt_cons]; push_cast; ring
      · simp only [List.take_succ_cons, pins_cons]
        have e : (((pin a b * pins (x.take n) (y.take n) : ℤ) : ℚ)) * q = (pins (x.take n) (y.take n) : ℚ) * ((pin a b : ℚ) * q) := by push_cast; ring
        rw [e]; exact g8

/-- second phase: the indices of the second particle -/
theorem ls_eps (conType : Char) (cj : Bool) (hc : (conType = 'c' ∧ cj = false) ∨ (conType = 'p' ∧ cj = true)) (n : ℕ) :
    ∀ (u y : List ℤ) (ome : List ℤ) (gs gσ : ℤ) (pre : Frac) (q : ℚ), n ≤ u.length → n ≤ y.length → (∀ m ∈ u, Hel m) → (∀ m ∈ y, Hel m) →
    Ok pre q → (pks cj (u.take n) (y.take n) = 0 ∧ lsLoop conType n ⟨ome, y.reverse, u.reverse, gs, gσ, pre, 0⟩ = .ok none) ∨
      (pks cj (u.take n) (y.take n) ≠ 0 ∧ ∃ pre', lsLoop conType n ⟨ome, y.reverse, u.reverse, gs, gσ, pre, 0⟩ =
        .ok (some ⟨ome, (y.drop n).reverse, (u.drop n).reverse, gs, gσ + (cnt (u.take n) (y.take n) : ℕ), pre', 0⟩) ∧
        Ok pre' (pks cj (u.take n) (y.take n) * q)) := by
  induction n with
  | zero =>
    intro u y ome gs gσ pre q _ _ _ _ hq
    exact Or.inr ⟨by simp, pre, by simp [lsLoop], by simpa using hq⟩
  | succ n ih =>
    intro u y ome gs gσ pre q hu hy hhu hhy hq
    match u, y with
    | [], _ => simp at hu
    | _ :: _, [] => simp at hy
    | a :: u, b :: y =>
      have ha := hhu a (by simp)
      have hb := hhy b (by simp)
      unfold Hel at ha hb
      have hstep : (pk cj a b = 0 ∧ lsStep conType ⟨ome, (b :: y).reverse, (a :: u).reverse, gs, gσ, pre, 0⟩ = .ok none) ∨
          (pk cj a b ≠ 0 ∧ ∃ pre', lsStep conType ⟨ome, (b :: y).reverse, (a :: u).reverse, gs, gσ, pre, 0⟩ =
            .ok (some ⟨ome, y.reverse, u.reverse, gs, gσ + (if a = 0 ∧ b = 0 then 1 else 0 : ℕ), pre', 0⟩) ∧ Ok pre' (pk cj a b * q)) := by
        have f1 : (a :: u).reverse.getLast? = some a := by simp
        have f2 : (b :: y).reverse.getLast? = some b := by simp
        have f3 : (a :: u).reverse.dropLast = u.reverse := by simp
        have f4 : (b :: y).reverse.dropLast = y.reverse := by simp
        have hfl := flipSign_ok hq
        unfold lsStep pk
        simp only [f1, f2, f3, f4, ne_eq, not_true_eq_false, if_false]
        rcases hc with ⟨rfl, rfl⟩ | ⟨rfl, rfl⟩ <;> rcases ha with rfl | rfl | rfl <;> rcases hb with rfl | rfl | rfl <;> simp <;>
          first | exact hq | exact hfl
      show (pks cj (a :: u.take n) (b :: y.take n) = 0 ∧ (lsStep conType _ >>= fun r => match r with | none => .ok none | some s' => lsLoop conType n s') = _) ∨
        (pks cj (a :: u.take n) (b :: y.take n) ≠ 0 ∧ ∃ pre', (lsStep conType _ >>= fun r => match r with | none => .ok none | some s' => lsLoop conType n s') = _ ∧ _)
      rw [pks_cons]
      rcases hstep with ⟨h1, h2⟩ | ⟨h1, p1, h2, h3⟩
      · exact Or.inl ⟨by rw [h1, zero_mul], by rw [h2]; rfl⟩
      · rw [h2, Outcome.ok_bind]
        rcases ih u y ome gs (gσ + (if a = 0 ∧ b = 0 then 1 else 0 : ℕ)) p1 _ (by simpa using hu) (by simpa using hy)
          (fun m hm => hhu m (by simp [hm])) (fun m hm => hhy m (by simp [hm])) h3 with ⟨g1, g2⟩ | ⟨g1, p2, g2, g3⟩
        · exact Or.inl ⟨by rw [g1, mul_zero], g2⟩
        · refine Or.inr ⟨mul_ne_zero h1 g1, p2, ?_, ?_⟩
          · refine g2.trans ?_
            rw [List.take_succ_cons, List.take_succ_cons, cnt_cons, Nat.cast_add, ← add_assoc]; rfl
          · have e : (((pk cj a b * pks cj (u.take n) (y.take n) : ℤ) : ℚ)) * q = (pks cj (u.take n) (y.take n) : ℚ) * ((pk cj a b : ℚ) * q) := by push_cast; ring
            rw [show (pk cj a b * pks cj (u.take n) (y.take n) : ℤ) = pks cj ((a :: u).take (n + 1)) ((b :: y).take (n + 1)) by simp] at e
            rw [e]; exact g3

/-- first phase: the indices of the first particle -/
theorem ls_ome (conType : Char) (cj : Bool) (hc : (conType = 'c' ∧ cj = false) ∨ (conType = 'p' ∧ cj = true)) (k n : ℕ) :
    ∀ (u x : List ℤ) (eps : List ℤ) (gs gσ : ℤ) (pre : Frac) (q : ℚ), n ≤ u.length → n ≤ x.length → (∀ m ∈ u, Hel m) → (∀ m ∈ x, Hel m) →
    Ok pre q → (pks cj (u.take n) (x.take n) = 0 ∧ lsLoop conType (n + k) ⟨x.reverse, eps, u.reverse, gs, gσ, pre, (n : ℕ)⟩ = .ok none) ∨
      (pks cj (u.take n) (x.take n) ≠ 0 ∧ ∃ pre', lsLoop conType (n + k) ⟨x.reverse, eps, u.reverse, gs, gσ, pre, (n : ℕ)⟩ =
        lsLoop conType k ⟨(x.drop n).reverse, eps, (u.drop n).reverse, gs + (cnt (u.take n) (x.take n) : ℕ), gσ, pre', 0⟩ ∧
        Ok pre' (pks cj (u.take n) (x.take n) * q)) := by
  induction n with
  | zero =>
    intro u x eps gs gσ pre q _ _ _ _ hq
    exact Or.inr ⟨by simp, pre, by simp, by simpa using hq⟩
  | succ n ih =>
    intro u x eps gs gσ pre q hu hx hhu hhx hq
    match u, x with
    | [], _ => simp at hu
    | _ :: _, [] => simp at hx
    | a :: u, b :: x =>
      have ha := hhu a (by simp)
      have hb := hhx b (by simp)
      unfold Hel at ha hb
      have hne : ¬ (((n + 1 : ℕ) : ℤ) = 0) := by omega
      have hstep : (pk cj a b = 0 ∧ lsStep conType ⟨(b :: x).reverse, eps, (a :: u).reverse, gs, gσ, pre, ((n + 1 : ℕ) : ℤ)⟩ = .ok none) ∨
          (pk cj a b ≠ 0 ∧ ∃ pre', lsStep conType ⟨(b :: x).reverse, eps, (a :: u).reverse, gs, gσ, pre, ((n + 1 : ℕ) : ℤ)⟩ =
            .ok (some ⟨x.reverse, eps, u.reverse, gs + (if a = 0 ∧ b = 0 then 1 else 0 : ℕ), gσ, pre', (n : ℤ)⟩) ∧ Ok pre' (pk cj a b * q)) := by
        have f1 : (a :: u).reverse.getLast? = some a := by simp
        have f2 : (b :: x).reverse.getLast? = some b := by simp
        have f3 : (a :: u).reverse.dropLast = u.reverse := by simp
        have f4 : (b :: x).reverse.dropLast = x.reverse := by simp
        have f5 : ((n + 1 : ℕ) : ℤ) - 1 = n := by omega
        have hfl := flipSign_ok hq
        unfold lsStep pk
        simp only [f1, f2, f3, f4, f5, ne_eq, hne, not_false_eq_true, if_true]
        rcases hc with ⟨rfl, rfl⟩ | ⟨rfl, rfl⟩ <;> rcases ha with rfl | rfl | rfl <;> rcases hb with rfl | rfl | rfl <;> simp <;>
          first | exact hq | exact hfl
      rw [show n + 1 + k = (n + k) + 1 by omega]
      show (pks cj (a :: u.take n) (b :: x.take n) = 0 ∧ (lsStep conType _ >>= fun r => match r with | none => .ok none | some s' => lsLoop conType (n + k) s') = _) ∨
        (pks cj (a :: u.take n) (b :: x.take n) ≠ 0 ∧ ∃ pre', (lsStep conType _ >>= fun r => match r with | none => .ok none | some s' => lsLoop conType (n + k) s') = _ ∧ _)
      rw [pks_cons]
      rcases hstep with ⟨h1, h2⟩ | ⟨h1, p1, h2, h3⟩
      · exact Or.inl ⟨by rw [h1, zero_mul], by rw [h2]; rfl⟩
      · rw [h2, Outcome.ok_bind]
        rcases ih u x eps (gs + (if a = 0 ∧ b = 0 then 1 else 0 : ℕ)) gσ p1 _ (by simpa using hu) (by simpa using hx)
          (fun m hm => hhu m (by simp [hm])) (fun m hm => hhx m (by simp [hm])) h3 with ⟨g1, g2⟩ | ⟨g1, p2, g2, g3⟩
        · exact Or.inl ⟨by rw [g1, mul_zero], g2⟩
        · refine Or.inr ⟨mul_ne_zero h1 g1, p2, ?_, ?_⟩
          · refine g2.trans ?_
            rw [List.take_succ_cons, List.take_succ_cons, cnt_cons, Nat.cast_add, ← add_assoc]; rfl
          · have e : (((pk cj a b * pks cj (u.take n) (x.take n) : ℤ) : ℚ)) * q = (pks cj (u.take n) (x.take n) : ℚ) * ((pk cj a b : ℚ) * q) := by push_cast; ring
            rw [show (pk cj a b * pks cj (u.take n) (x.take n) : ℤ) = pks cj ((a :: u).take (n + 1)) ((b :: x).take (n + 1)) by simp] at e
            rw [e]; exact g3

/-- contraction with the indices of both particles -/
theorem ls_loop (conType : Char) (cj : Bool) (hc : (conType = 'c' ∧ cj = false) ∨ (conType = 'p' ∧ cj = true)) (n k : ℕ)
    (u x y : List ℤ) (gs gσ : ℤ) (pre : Frac) (q : ℚ) (hu : n + k ≤ u.length) (hx : n ≤ x.length) (hy : k ≤ y.length) (hhu : ∀ m ∈ u, Hel m)
    (hhx : ∀ m ∈ x, Hel m) (hhy : ∀ m ∈ y, Hel m) (hq : Ok pre q) (s : ℤ)
    (hs : s = pks cj (u.take n) (x.take n) * pks cj ((u.drop n).take k) (y.take k)) :
    (s = 0 ∧ lsLoop conType (n + k) ⟨x.reverse, y.reverse, u.reverse, gs, gσ, pre, (n : ℕ)⟩ = .ok none) ∨
      (s ≠ 0 ∧ ∃ pre', lsLoop conType (n + k) ⟨x.reverse, y.reverse, u.reverse, gs, gσ, pre, (n : ℕ)⟩ =
        .ok (some ⟨(x.drop n).reverse, (y.drop k).reverse, (u.drop (n + k)).reverse, gs + (cnt (u.take n) (x.take n) : ℕ),
          gσ + (cnt ((u.drop n).take k) (y.take k) : ℕ), pre', 0⟩) ∧ Ok pre' (s * q)) := by
  subst hs
  rcases ls_ome conType cj hc k n u x y.reverse gs gσ pre q (by omega) hx hhu hhx hq with ⟨h1, h2⟩ | ⟨h1, p1, h2, h3⟩
  · exact Or.inl ⟨by rw [h1, zero_mul], h2⟩
  · rw [h2]
    rcases ls_eps conType cj hc k (u.drop n) y (x.drop n).reverse (gs + (cnt (u.take n) (x.take n) : ℕ)) gσ p1 _
      (by rw [List.length_drop]; omega) hy (fun m hm => hhu m (List.mem_of_mem_drop hm)) hhy h3 with ⟨g1, g2⟩ | ⟨g1, p2, g2, g3⟩
    · exact Or.inl ⟨by rw [g1, mul_zero], g2⟩
    · refine Or.inr ⟨mul_ne_zero h1 g1, p2, ?_, ?_⟩
      · rw [g2, List.drop_drop]
      · have e : ((pks cj (u.take n) (x.take n) * pks cj ((u.drop n).take k) (y.take k) : ℤ) : ℚ) * q =
            (pks cj ((u.drop n).take k) (y.take k) : ℚ) * ((pks cj (u.take n) (x.take n) : ℚ) * q) := by push_cast; ring
        rw [e]; exact g3

theorem ls_chi (n k : ℕ) (u x y : List ℤ) (S : Term) (l : Frac) (q r : ℚ) (hu : n + k ≤ u.length) (hx : n ≤ x.length) (hy : k ≤ y.length)
    (hhu : ∀ m ∈ u, Hel m) (hhx : ∀ m ∈ x, Hel m) (hhy : ∀ m ∈ y, Hel m) (ho : S.ome = x.reverse) (he : S.eps = y.reverse)
    (hch : S.chi = []) (hph : S.phi = []) (hq : Ok S.pre q) (hr : Ok l r) (s : ℤ)
    (hs : s = pks false (u.take n) (x.take n) * pks false ((u.drop n).take k) (y.take k)) :
    ∃ t', lsTerm S (mkTerm 'c' u.reverse l) ((n + k : ℕ) : ℤ) (n : ℕ) 'c' = .ok t' ∧ Ok t'.pre (s * (q * r)) ∧
      (s ≠ 0 → t'.ome = (x.drop n).reverse ∧ t'.eps = (y.drop k).reverse ∧ t'.chi = (u.drop (n + k)).reverse ∧ t'.phi = [] ∧
        t'.gamS = S.gamS + (cnt (u.take n) (x.take n) : ℕ) ∧ t'.gamSig = S.gamSig + (cnt ((u.drop n).take k) (y.take k) : ℕ)) := by
  have hL : (mkTerm 'c' u.reverse l) = ⟨[], [], u.reverse, [], 0, 0, l⟩ := by simp [mkTerm]
  unfold lsTerm
  rw [hL]
  dsimp only
  rw [if_neg (by simp), if_neg (by simp [hch]), if_pos rfl, ho, he, Int.toNat_natCast]
  rcases ls_loop 'c' false (Or.inl ⟨rfl, rfl⟩) n k u x y (S.gamS + 0) (S.gamSig + 0) _ _ hu hx hy hhu hhx hhy (mul_ok hq hr) s hs with ⟨h1, h2⟩ | ⟨h1, p1, h2, h3⟩
  · rw [h2, Outcome.ok_bind]
    exact ⟨_, rfl, by rw [h1]; simpa using ok_zero, fun h => absurd h1 h⟩
  · rw [h2, Outcome.ok_bind]
    exact ⟨_, rfl, h3, fun _ => ⟨rfl, rfl, by simp [hch], by simp [hph], by simp, by simp⟩⟩

theorem ls_phi (n k : ℕ) (w x y : List ℤ) (S : Term) (l : Frac) (q r : ℚ) (hu : n + k ≤ w.length) (hx : n ≤ x.length) (hy : k ≤ y.length)
    (hhu : ∀ m ∈ w, Hel m) (hhx : ∀ m ∈ x, Hel m) (hhy : ∀ m ∈ y, Hel m) (ho : S.ome = x.reverse) (he : S.eps = y.reverse)
    (hph : S.phi = []) (hq : Ok S.pre q) (hr : Ok l r) (s : ℤ)
    (hs : s = pks true (w.take n) (x.take n) * pks true ((w.drop n).take k) (y.take k)) :
    ∃ t', lsTerm S (mkTerm 'p' w.reverse l) ((n + k : ℕ) : ℤ) (n : ℕ) 'p' = .ok t' ∧ Ok t'.pre (s * (q * r)) ∧
      (s ≠ 0 → t'.ome = (x.drop n).reverse ∧ t'.eps = (y.drop k).reverse ∧ t'.chi = S.chi ∧ t'.phi = (w.drop (n + k)).reverse ∧
        t'.gamS = S.gamS + (cnt (w.take n) (x.take n) : ℕ) ∧ t'.gamSig = S.gamSig + (cnt ((w.drop n).take k) (y.take k) : ℕ)) := by
  have hL : (mkTerm 'p' w.reverse l) = ⟨[], [], [], w.reverse, 0, 0, l⟩ := by simp [mkTerm]
  unfold lsTerm
  rw [hL]
  dsimp only
  rw [if_neg (by simp), if_neg (by simp [hph]), if_neg (by decide), ho, he, Int.toNat_natCast]
  rcases ls_loop 'p' true (Or.inr ⟨rfl, rfl⟩) n k w x y (S.gamS + 0) (S.gamSig + 0) _ _ hu hx hy hhu hhx hhy (mul_ok hq hr) s hs with ⟨h1, h2⟩ | ⟨h1, p1, h2, h3⟩
  · rw [h2, Outcome.ok_bind]
    exact ⟨_, rfl, by rw [h1]; simpa using ok_zero, fun h => absurd h1 h⟩
  · rw [h2, Outcome.ok_bind]
    exact ⟨_, rfl, h3, fun _ => ⟨rfl, rfl, by simp, by simp [hph], by simp, by simp⟩⟩

theorem lj_loop (n : ℕ) : ∀ (u w : List ℤ) (t : Term), n ≤ u.length → n ≤ w.length → t.chi = u.reverse → t.phi = w.reverse →
    (pks true (u.take n) (w.take n) = 0 ∧ ∃ t', ljLoop n t = .ok (t', false) ∧ t'.pre = zero) ∨
    (pks true (u.take n) (w.take n) = 1 ∧ ljLoop n t = .ok ({ t with chi := (u.drop n).reverse, phi := (w.drop n).reverse }, true)) := by
  induction n with
  | zero =>
    intro u w t _ _ hc hp
    exact Or.inr ⟨by simp, by simp [ljLoop, ← hc, ← hp]⟩
  | succ n ih =>
    intro u w t hu hw hc hp
    match u, w with
    | [], _ => simp at hu
    | _ :: _, [] => simp at hw
    | a :: u, b :: w =>
      have e1 : t.chi.getLast? = some a := by rw [hc]; simp
      have e2 : t.phi.getLast? = some b := by rw [hp]; simp
      have e3 : t.chi.dropLast = u.reverse := by rw [hc]; simp
      have e4 : t.phi.dropLast = w.reverse := by rw [hp]; simp
      simp only [ljLoop, e1, e2, e3, e4, List.take_succ_cons, pks_cons, List.drop_succ_cons]
      by_cases hab : a = b
      · rw [if_neg (by simp [hab])]
        have hpk : pk true a b = 1 := by simp [pk, hab]
        rw [hpk, one_mul]
        exact ih u w { t with chi := u.reverse, phi := w.reverse } (by simpa using hu) (by simpa using hw) rfl rfl
      · rw [if_pos hab]
        have hpk : pk true a b = 0 := by simp [pk, hab]
        rw [hpk, zero_mul]
        exact Or.inl ⟨rfl, _, rfl, rfl⟩

/-- what is left over: sign and exponents -/
def left (x y u w : List ℤ) : ℤ × ℕ × ℕ :=
  match x, y, u, w with
  | [], [], [], [] => (1, 0, 0)
  | [], [b], [c], [d] => ((epsA b c d).1, 0, (epsA b c d).2.toNat)
  | [a], [], [c], [d] => ((epsA a c d).1, (epsA a c d).2.toNat, 0)
  | [a], [b], [], [d] => ((epsP a b d).1, (epsP a b d).2.1.toNat, (epsP a b d).2.2.toNat)
  | [a], [b], [c], [] => ((epsC a b c).1, (epsC a b c).2.1.toNat, (epsC a b c).2.2.toNat)
  | _, _, _, _ => (0, 0, 0)

/-- the numbers of indices that can be left over -/
def Shape (even : Bool) (a b c d : ℕ) : Prop :=
  (even = true ∧ a = 0 ∧ b = 0 ∧ c = 0 ∧ d = 0) ∨ (even = false ∧ a + b + c + d = 3 ∧ a ≤ 1 ∧ b ≤ 1 ∧ c ≤ 1 ∧ d ≤ 1)

theorem signed_ok {f : Frac} {q : ℚ} (h : Ok f q) (z : ℤ) (hz : z = 0 ∨ z = 1 ∨ z = -1) : Ok (signed f z) (z * q) := by
  unfold signed
  rcases hz with rfl | rfl | rfl
  · simpa using ok_zero
  · simpa using h
  · simpa using flipSign_ok h

theorem epsA_range (a b c : ℤ) : ((epsA a b c).1 = 0 ∨ (epsA a b c).1 = 1 ∨ (epsA a b c).1 = -1) ∧ 0 ≤ (epsA a b c).2 := by
  unfold epsA; split_ifs <;> simp
theorem epsP_range (a b c : ℤ) : ((epsP a b c).1 = 0 ∨ (epsP a b c).1 = 1 ∨ (epsP a b c).1 = -1) ∧ 0 ≤ (epsP a b c).2.1 ∧ 0 ≤ (epsP a b c).2.2 := by
  unfold epsP; split_ifs <;> simp
theorem epsC_range (a b c : ℤ) : ((epsC a b c).1 = 0 ∨ (epsC a b c).1 = 1 ∨ (epsC a b c).1 = -1) ∧ 0 ≤ (epsC a b c).2.1 ∧ 0 ≤ (epsC a b c).2.2 := by
  unfold epsC; split_ifs <;> simp

theorem lj_ok (n : ℕ) (even : Bool) (x y u w : List ℤ) (t : Term) (q : ℚ) (hu : n ≤ u.length) (hw : n ≤ w.length)
    (hs : Shape even x.length y.length (u.length - n) (w.length - n)) (ho : t.ome = x.reverse) (he : t.eps = y.reverse) (hc : t.chi = u.reverse)
    (hp : t.phi = w.reverse) (hq : Ok t.pre q) (s : ℤ) (hsv : s = pks true (u.take n) (w.take n) * (left x y (u.drop n) (w.drop n)).1) :
    ∃ t', ljTerm t n even = .ok t' ∧ Ok t'.pre (s * q) ∧
      (s ≠ 0 → t'.ome = [] ∧ t'.eps = [] ∧ t'.chi = [] ∧ t'.phi = [] ∧ t'.gamS = t.gamS + ((left x y (u.drop n) (w.drop n)).2.1 : ℕ) ∧
        t'.gamSig = t.gamSig + ((left x y (u.drop n) (w.drop n)).2.2 : ℕ)) := by
  subst hsv
  unfold ljTerm
  rw [Int.toNat_natCast]
  rcases lj_loop n u w t hu hw hc hp with ⟨h1, t', h2, h3⟩ | ⟨h1, h2⟩
  · rw [h2, Outcome.ok_bind, h1]
    dsimp only
    rw [if_pos rfl]
    exact ⟨_, rfl, by rw [h3]; simpa using ok_zero, fun h => absurd (zero_mul _) h⟩
  · rw [h2, Outcome.ok_bind, h1, one_mul]
    dsimp only
    rw [if_neg (by decide), ho, he]
    have lu : (u.drop n).length = u.length - n := List.length_drop
    have lw : (w.drop n).length = w.length - n := List.length_drop
    generalize u.drop n = u' at lu ⊢
    generalize w.drop n = w' at lw ⊢
    rw [← lu, ← lw] at hs
    rcases hs with ⟨rfl, g1, g2, g3, g4⟩ | ⟨rfl, g0, g1, g2, g3, g4⟩
    · obtain rfl := List.length_eq_zero_iff.mp g1
      obtain rfl := List.length_eq_zero_iff.mp g2
      obtain rfl := List.length_eq_zero_iff.mp g3
      obtain rfl := List.length_eq_zero_iff.mp g4
      exact ⟨_, by simp; rfl, by simpa [left] using hq, fun _ => ⟨rfl, rfl, rfl, rfl, by simp [left], by simp [left]⟩⟩
    · rw [if_neg (by decide)]
      match x, y, u', w', g0, g1, g2, g3, g4 with
      | [], [b], [c], [d], _, _, _, _, _ =>
        have hr := epsA_range b c d
        exact ⟨_, by simp [shrink, single]; rfl, signed_ok hq _ hr.1, fun _ => ⟨rfl, rfl, rfl, rfl, by simp [left], by
          show _ = t.gamSig + (((epsA b c d).2.toNat : ℕ) : ℤ); rw [Int.toNat_of_nonneg hr.2]⟩⟩
      | [a], [], [c], [d], _, _, _, _, _ =>
        have hr := epsA_range a c d
        exact ⟨_, by simp [shrink, single]; rfl, signed_ok hq _ hr.1, fun _ => ⟨rfl, rfl, rfl, rfl, by
          show _ = t.gamS + (((epsA a c d).2.toNat : ℕ) : ℤ); rw [Int.toNat_of_nonneg hr.2], by simp [left]⟩⟩
      | [a], [b], [], [d], _, _, _, _, _ =>
        have hr := epsP_range a b d
        exact ⟨_, by simp [shrink, single]; rfl, signed_ok hq _ hr.1, fun _ => ⟨rfl, rfl, rfl, rfl, by
          show _ = t.gamS + (((epsP a b d).2.1.toNat : ℕ) : ℤ); rw [Int.toNat_of_nonneg hr.2.1], by
          show _ = t.gamSig + (((epsP a b d).2.2.toNat : ℕ) : ℤ); rw [Int.toNat_of_nonneg hr.2.2]⟩⟩
      | [a], [b], [c], [], _, _, _, _, _ =>
        have hr := epsC_range a b c
        exact ⟨_, by simp [shrink, single]; rfl, signed_ok hq _ hr.1, fun _ => ⟨rfl, rfl, rfl, rfl, by
          show _ = t.gamS + (((epsC a b c).2.1.toNat : ℕ) : ℤ); rw [Int.toNat_of_nonneg hr.2.1], by
          show _ = t.gamSig + (((epsC a b c).2.2.toNat : ℕ) : ℤ); rw [Int.toNat_of_nonneg hr.2.2]⟩⟩
      | _ :: _ :: _, _, _, _, _, h, _, _, _ => simp at h
      | _, _ :: _ :: _, _, _, _, _, h, _, _ => simp at h
      | _, _, _ :: _ :: _, _, _, _, _, h, _ => simp at h
      | _, _, _, _ :: _ :: _, _, _, _, _, h => simp at h
      | [], [], [], [], h, _, _, _, _ => simp at h
      | [_], [], [], [], h, _, _, _, _ => simp at h
      | [], [_], [], [], h, _, _, _, _ => simp at h
      | [], [], [_], [], h, _, _, _, _ => simp at h
      | [], [], [], [_], h, _, _, _, _ => simp at h
      | [_], [_], [], [], h, _, _, _, _ => simp at h
      | [_], [], [_], [], h, _, _, _, _ => simp at h
      | [_], [], [], [_], h, _, _, _, _ => simp at h
      | [], [_], [_], [], h, _, _, _, _ => simp at h
      | [], [_], [], [_], h, _, _, _, _ => simp at h
      | [], [], [_], [_], h, _, _, _, _ => simp at h
      | [_], [_], [_], [_], h, _, _, _, _ => simp at h

end Rpwa.SpinTensor
