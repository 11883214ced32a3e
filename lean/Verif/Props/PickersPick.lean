import Verif.Props.PickersT
/-! Picking t' with the exponential picker -/
namespace Rpwa.Pick
open MeasureTheory Set

/-! ### parameters for a mass -/

theorem lowerBound_spec (S : List (ℝ × List ℝ)) (m : ℝ) (h : Sorted S) :
    (∀ i e, S[i]? = some e → (i < lowerBound m S ↔ e.1 < m)) ∧ lowerBound m S ≤ S.length := by
  induction S with
  | nil => exact ⟨fun i e he => by simp at he, le_rfl⟩
  | cons a S ih =>
    obtain ⟨ha, hS⟩ := List.pairwise_cons.1 h
    unfold lowerBound at ih ⊢
    rw [List.takeWhile_cons]
    by_cases hm : a.1 < m
    · rw [if_pos (decide_eq_true hm)]
      obtain ⟨h1, h2⟩ := ih hS
      refine ⟨fun i e he => ?_, Nat.succ_le_succ h2⟩
      cases i with
      | zero =>
        cases Option.some.inj he
        exact ⟨fun _ => hm, fun _ => Nat.succ_pos _⟩
      | succ i => exact Nat.succ_lt_succ_iff.trans (h1 i e he)
    · rw [if_neg (by rw [decide_eq_false hm]; decide)]
      refine ⟨fun i e he => ⟨fun hi => absurd hi (Nat.not_lt_zero i), fun he' => ?_⟩, Nat.zero_le _⟩
      cases i with
      | zero =>
        cases Option.some.inj he
        exact absurd he' hm
      | succ i => exact absurd ((ha e (List.mem_of_getElem? he)).trans he') hm

/-- between two neighbouring entries the parameters are interpolated; at (and only at) the upper one they are its parameters. -/
theorem paramsFor_between (S : List (ℝ × List ℝ)) (h : Sorted S) (i : ℕ) (lo up : ℝ × List ℝ) (hlo : S[i]? = some lo) (hup : S[i + 1]? = some up)
    (m : ℝ) (h1 : lo.1 < m) (h2 : m ≤ up.1) : paramsFor S m = interpolate m lo up := by
  match S, h with
  | [], _ => cases hlo
  | [e], _ => cases hup
  | first :: b :: rest, h =>
    unfold paramsFor
    dsimp only
    obtain ⟨ha, hS⟩ := List.pairwise_cons.1 h
    have hfirst : first.1 < m := by
      cases i with
      | zero => cases Option.some.inj hlo; exact h1
      | succ i => exact (ha lo (List.mem_of_getElem? hlo)).trans h1
    have hlast : ¬ ((b :: rest).getLastD first).1 < m := by
      rw [not_lt]
      refine h2.trans ?_
      obtain ⟨hi, rfl⟩ := List.getElem?_eq_some_iff.1 hup
      rw [List.getElem_cons_succ]
      have hi' : i < (b :: rest).length := Nat.lt_of_succ_lt_succ hi
      have hL : (b :: rest).getLastD first = (b :: rest)[(b :: rest).length - 1]'(by simp) := by
        rw [List.getLastD_eq_getLast?, List.getLast?_eq_getElem?, List.getElem?_eq_getElem (by simp)]
        rfl
      rw [hL]
      rcases Nat.lt_or_ge i ((b :: rest).length - 1) with hlt | hge
      · exact (List.pairwise_iff_getElem.1 hS i _ hi' (by simp) hlt).le
      · have : i = (b :: rest).length - 1 := by omega
        simp only [this, le_refl]
    rw [if_neg hlast, if_neg (not_lt.2 hfirst.le)]
    obtain ⟨hk, _⟩ := lowerBound_spec _ m h
    have k1 := (hk i lo hlo).2 h1
    have k2 : ¬ (i + 1 < lowerBound m (first :: b :: rest)) := fun hh => absurd ((hk _ up hup).1 hh) (not_lt.2 h2)
    have hk' : lowerBound m (first :: b :: rest) = i + 1 := by omega
    rw [hk', if_neg (Nat.succ_ne_zero i), Nat.add_sub_cancel, hlo, hup]

/-- below the first mass the parameters are those of the first entry. -/
theorem paramsFor_below (e b : ℝ × List ℝ) (rest : List (ℝ × List ℝ)) (h : Sorted (e :: b :: rest)) (m : ℝ) (hm : m < e.1) :
    paramsFor (e :: b :: rest) m = .ok e.2 := by
  unfold paramsFor
  dsimp only
  obtain ⟨ha, hS⟩ := List.pairwise_cons.1 h
  have hlast : ¬ ((b :: rest).getLastD e).1 < m := by
    have : (b :: rest).getLastD e ∈ b :: rest := by
      rw [List.getLastD_eq_getLast?, List.getLast?_eq_some_getLast (by simp)]
      exact List.getLast_mem _
    exact not_lt.2 (hm.trans (ha _ this)).le
  rw [if_neg hlast, if_pos hm]

/-- above the last mass the parameters are those of the last entry. -/
theorem paramsFor_above (S : List (ℝ × List ℝ)) (e : ℝ × List ℝ) (hS : S ≠ []) (m : ℝ) (hm : e.1 < m) : paramsFor (S ++ [e]) m = .ok e.2 := by
  match S, hS with
  | a :: S, _ =>
    cases hr : S ++ [e] with
    | nil => simp at hr
    | cons b rest =>
      rw [List.cons_append, hr]
      unfold paramsFor
      dsimp only
      have : (b :: rest).getLastD a = e := by
        rw [← hr, List.getLastD_eq_getLast?, List.getLast?_concat]
        rfl
      rw [this, if_pos hm]

/-- **defect**: at exactly the mass of the first of several entries the iterator before the first entry is used. -/
theorem paramsFor_first (e b : ℝ × List ℝ) (rest : List (ℝ × List ℝ)) (h : Sorted (e :: b :: rest)) : paramsFor (e :: b :: rest) e.1 = .ub := by
  unfold paramsFor
  dsimp only
  obtain ⟨ha, hS⟩ := List.pairwise_cons.1 h
  have hlast : ¬ ((b :: rest).getLastD e).1 < e.1 := by
    have : (b :: rest).getLastD e ∈ b :: rest := by
      rw [List.getLastD_eq_getLast?, List.getLast?_eq_some_getLast (by simp)]
      exact List.getLast_mem _
    exact not_lt.2 (ha _ this).le
  rw [if_neg hlast, if_neg (lt_irrefl _)]
  have hk : lowerBound e.1 (e :: b :: rest) = 0 := by
    unfold lowerBound
    rw [List.takeWhile_cons, if_neg (by simp)]
    rfl
  rw [hk, if_pos rfl]

/-- the value at a mass `m` of the line between the values at two masses. -/
noncomputable def line (m m1 m2 a b : ℝ) : ℝ := (a * (m2 - m) + b * (m - m1)) / (m2 - m1)

/-- interpolated parameters: each is the value of the line between the two entries, and the signs required of parameters are kept. -/
theorem interpolate_spec (m : ℝ) (lo up : ℝ × List ℝ) (h1 : lo.1 < m) (h2 : m ≤ up.1) (hl : lo.2.length = up.2.length) : ∃ p, interpolate m lo up = .ok p ∧
    p.length = lo.2.length ∧ (∀ j, j < p.length → p.getD j 0 = line m lo.1 up.1 (lo.2.getD j 0) (up.2.getD j 0)) ∧
    (∀ n, Signs n lo.2 → Signs n up.2 → n ≤ (lo.2.length + 1) / 2 → Signs n p) ∧ (m = up.1 → p = up.2) := by
  have hd : 0 < up.1 - lo.1 := by linarith
  have hval : ∀ j, j < lo.2.length → (List.zipWith (fun a b => a + (b - a) / (up.1 - lo.1) * (m - lo.1)) lo.2 up.2).getD j 0 =
      line m lo.1 up.1 (lo.2.getD j 0) (up.2.getD j 0) := by
    intro j hj
    have hj' : j < up.2.length := hl ▸ hj
    rw [List.getD_eq_getElem?_getD, List.getElem?_zipWith, List.getElem?_eq_getElem hj, List.getElem?_eq_getElem hj', List.getD_eq_getElem?_getD,
      List.getD_eq_getElem?_getD, List.getElem?_eq_getElem hj, List.getElem?_eq_getElem hj']
    show lo.2[j] + (up.2[j] - lo.2[j]) / (up.1 - lo.1) * (m - lo.1) = line m lo.1 up.1 lo.2[j] up.2[j]
    unfold line
    rw [eq_div_iff hd.ne', add_mul, mul_right_comm, div_mul_cancel₀ _ hd.ne']
    ring
  have hlen : (List.zipWith (fun a b => a + (b - a) / (up.1 - lo.1) * (m - lo.1)) lo.2 up.2).length = lo.2.length := by
    rw [List.length_zipWith, ← hl, min_self]
  refine ⟨_, if_neg (not_not.2 hl), hlen, fun j hj => hval j (hlen ▸ hj), fun n s1 s2 hn j hj => ?_, fun e => ?_⟩
  · obtain ⟨a1, a2⟩ := s1 j hj
    obtain ⟨b1, b2⟩ := s2 j hj
    have w1 : 0 ≤ up.1 - m := by linarith
    have w2 : 0 < m - lo.1 := by linarith
    refine ⟨?_, fun h0 => ?_⟩
    · rw [hval _ (by omega)]
      unfold line
      refine div_neg_of_neg_of_pos ?_ hd
      nlinarith [mul_nonneg (neg_nonneg.2 a1.le) w1, mul_pos (neg_pos.2 b1) w2]
    · rw [hval _ (by omega)]
      unfold line
      exact div_nonneg (add_nonneg (mul_nonneg (a2 h0) w1) (mul_nonneg (b2 h0) w2.le)) hd.le
  · refine List.ext_getElem (by rw [hlen, hl]) fun j g1 g2 => ?_
    have hj : j < lo.2.length := hlen ▸ g1
    have := hval j hj
    rw [List.getD_eq_getElem?_getD, List.getElem?_eq_getElem g1, List.getD_eq_getElem?_getD, List.getD_eq_getElem?_getD, List.getElem?_eq_getElem hj,
      List.getElem?_eq_getElem g2] at this
    refine this.trans ?_
    show line m lo.1 up.1 lo.2[j] up.2[j] = up.2[j]
    unfold line
    rw [e, sub_self, mul_zero, zero_add, mul_div_assoc, div_self hd.ne', mul_one]

/-- a picker as left by `init` with entries that all have the same number of parameters. -/
structure Ready (s : ExpPicker) : Prop where
  hinit : s.ranges.initialized = true
  ht : s.ranges.tLo ≤ s.ranges.tHi
  hmass : s.ranges.massLo ≤ s.ranges.massHi
  hne : s.slopes ≠ []
  hsorted : Sorted s.slopes
  hlen : ∀ e ∈ s.slopes, e.2.length = 2 * s.nExp - 1
  hn : 0 < s.nExp
  hsigns : ∀ e ∈ s.slopes, Signs s.nExp e.2

/-- `init` of a new picker with settings whose entries have the same number of parameters leaves such a picker, with the ranges of the settings and at each
mass the parameters of the first entry for this mass. -/
theorem init_ready (dblMax : ℝ) (s' : ExpPicker) (g : Group) (h : (ExpPicker.new dblMax).init g = .ok (true, s')) :
    ∃ numbers es, RangeSettings g 0 dblMax s'.ranges ∧ SlopeSettings g numbers es ∧ (∀ m, valueAt s'.slopes m = valueAt es m) ∧ Sorted s'.slopes ∧
      ((∀ e ∈ es, ∀ e' ∈ es, e.2.length = e'.2.length) → Ready s') := by
  obtain ⟨_, r, numbers, es, n, hR, hS, hA, rfl⟩ := (exp_init_iff _ _ _).1 h
  have hs : Sorted (insertAll es ([] : List (ℝ × List ℝ))) := insertAll_sorted es [] List.Pairwise.nil
  refine ⟨numbers, es, ⟨hR.1, hR.2, hR.3, hR.4, hR.5, hR.6⟩, hS, fun m => insertAll_valueAt es [] List.Pairwise.nil m, hs, fun hL => ?_⟩
  obtain ⟨x, xs, hx⟩ := List.exists_cons_of_ne_nil hA.hne
  have hxm : x ∈ es := by rw [hx]; exact List.mem_cons_self
  have hxl : x.2.length = 2 * n - 1 ∧ 0 < n := by
    have a := hA.hlen x hxm
    cases numbers with
    | true =>
      obtain ⟨ts, _, hT⟩ := hS.hslopes
      rw [hx, List.map_cons] at hT
      cases hT with
      | cons hy _ =>
        obtain ⟨y, _, hy⟩ := hy
        rw [hy, hA.hnum rfl]
        exact ⟨rfl, one_pos⟩
    | false =>
      have b := hA.hodd rfl x (by rw [hx]; rfl)
      omega
  have hmem : ∀ e ∈ insertAll es ([] : List (ℝ × List ℝ)), e ∈ es := fun e he => by
    rcases insertAll_mem es [] he with h | h
    · exact h
    · cases h
  refine ⟨rfl, hR.6, hR.3, fun e => ?_, hs, fun e he => (hL e (hmem e he) x hxm).trans hxl.1, hxl.2, fun e he => hA.hsigns e (hmem e he)⟩
  have hv := insertAll_valueAt es [] List.Pairwise.nil x.1
  have e' : insertAll es [] = [] := e
  rw [e', hx, valueAt_cons, if_pos rfl] at hv
  cases hv

/-- the parameters for a mass that is not exactly the first of several masses: falling exponentials, as many as the settings say. -/
theorem paramsFor_ready (s : ExpPicker) (h : Ready s) (m : ℝ) (hm : ∀ e ∈ s.slopes.head?, s.slopes.length = 1 ∨ m ≠ e.1) : ∃ p, paramsFor s.slopes m = .ok p ∧
    p.length = 2 * s.nExp - 1 ∧ Falling p := by
  have fin : ∀ p : List ℝ, p.length = 2 * s.nExp - 1 → Signs s.nExp p → Falling p := fun p hp hs => by
    have := h.hn
    exact falling_of_signs s.nExp p (by omega) (by omega) hs
  have entry : ∀ e ∈ s.slopes, e.2.length = 2 * s.nExp - 1 ∧ Falling e.2 := fun e he => ⟨h.hlen e he, fin _ (h.hlen e he) (h.hsigns e he)⟩
  match hs : s.slopes with
  | [] => exact absurd hs h.hne
  | [e] => exact ⟨e.2, rfl, entry e (by rw [hs]; exact List.mem_cons_self)⟩
  | first :: b :: rest =>
    have hsort := h.hsorted
    rw [hs] at hsort hm
    have hmf : m ≠ first.1 := by
      rcases hm first rfl with e | e
      · simp at e
      · exact e
    rcases lt_or_gt_of_ne hmf with hlt | hgt
    · exact ⟨first.2, paramsFor_below first b rest hsort m hlt, entry first (by rw [hs]; exact List.mem_cons_self)⟩
    · by_cases hlast : ((b :: rest).getLastD first).1 < m
      · obtain ⟨l, hl⟩ : ∃ l, l = (b :: rest).getLastD first := ⟨_, rfl⟩
        have hmem : l ∈ b :: rest := by
          rw [hl, List.getLastD_eq_getLast?, List.getLast?_eq_some_getLast (by simp)]
          exact List.getLast_mem _
        refine ⟨l.2, ?_, entry l (by rw [hs]; exact List.mem_cons_of_mem _ hmem)⟩
        unfold paramsFor
        dsimp only
        rw [if_pos hlast, hl]
      · obtain ⟨hk, hk'⟩ := lowerBound_spec _ m hsort
        have k0 : 0 < lowerBound m (first :: b :: rest) := (hk 0 first rfl).2 hgt
        have k1 : lowerBound m (first :: b :: rest) < (first :: b :: rest).length := by
          rcases Nat.lt_or_ge (lowerBound m (first :: b :: rest)) (first :: b :: rest).length with g | g
          · exact g
          · exfalso
            apply hlast
            have hL : (b :: rest).getLastD first = (first :: b :: rest)[(b :: rest).length]'(by simp) := by
              rw [List.getLastD_eq_getLast?, List.getLast?_eq_getElem?, List.getElem?_eq_getElem (by simp)]
              rfl
            have := hk (b :: rest).length _ (List.getElem?_eq_getElem (by simp))
            rw [hL]
            refine this.1 ?_
            rw [List.length_cons] at g
            omega
        obtain ⟨i, hi⟩ : ∃ i, lowerBound m (first :: b :: rest) = i + 1 := ⟨_, (Nat.succ_pred_eq_of_pos k0).symm⟩
        rw [hi] at k1
        have hup := List.getElem?_eq_getElem k1
        have hlo := List.getElem?_eq_getElem (Nat.lt_of_succ_lt k1)
        have c1 := (hk i _ hlo).1 (by rw [hi]; exact Nat.lt_succ_self i)
        have c2 : m ≤ ((first :: b :: rest)[i + 1]).1 := not_lt.1 fun hh => absurd ((hk (i + 1) _ hup).2 hh) (by rw [hi]; exact lt_irrefl _)
        have mlo : (first :: b :: rest)[i] ∈ s.slopes := by rw [hs]; exact List.getElem_mem _
        have mup : (first :: b :: rest)[i + 1] ∈ s.slopes := by rw [hs]; exact List.getElem_mem _
        obtain ⟨p, e1, e2, _, e4, _⟩ := interpolate_spec m _ _ c1 c2 ((h.hlen _ mlo).trans (h.hlen _ mup).symm)
        have hp : p.length = 2 * s.nExp - 1 := e2.trans (h.hlen _ mlo)
        refine ⟨p, (paramsFor_between _ hsort i _ _ hlo hup m c1 c2).trans e1, hp, fin p hp (e4 _ (h.hsigns _ mlo) (h.hsigns _ mup) ?_)⟩
        rw [h.hlen _ mlo]
        have := h.hn
        omega

/-- the random numbers are between 0 and 1 (`TRandom3` returns neither). -/
def Uniforms (rs : List ℝ) : Prop := ∀ r ∈ rs, 0 < r ∧ r < 1

/-- **one exponential**: t' is exactly the quantile of the documented distribution that the random number asks for. -/
theorem pickT_single (eps : ℝ) (s : ExpPicker) (h : Ready s) (hn : s.nExp = 1) (m r : ℝ) (rs : List ℝ) (hr : 0 < r ∧ r < 1)
    (hm : ∀ e ∈ s.slopes.head?, s.slopes.length = 1 ∨ m ≠ e.1) : ∃ p t, paramsFor s.slopes m = .ok [p] ∧ p < 0 ∧
      s.pickT eps m (r :: rs) = .ok (some t) ∧ IsQuantile (shape [p]) s.ranges.tLo s.ranges.tHi r t := by
  obtain ⟨p, hp, hl, hf⟩ := paramsFor_ready s h m hm
  rw [hn] at hl
  obtain ⟨x, rfl⟩ : ∃ x, p = [x] := List.length_eq_one_iff.1 hl
  have hx : x < 0 := (hf.2 (1, x) List.mem_cons_self).2
  refine ⟨x, single x s.ranges.tLo s.ranges.tHi r, hp, hx, ?_, single_quantile hx h.ht ⟨hr.1.le, hr.2.le⟩⟩
  unfold ExpPicker.pickT
  rw [if_neg (by rw [h.hinit]; decide), if_neg (by simp [h.hne]), hp, Outcome.ok_bind, hn, if_neg (by simp), if_pos rfl]
  rfl

theorem newtonTries_some (eps : ℝ) (F f : ℝ → ℝ) (Fmin Fmax : ℝ) : ∀ (k : ℕ) (rs : List ℝ) (t : ℝ), newtonTries eps F f Fmin Fmax k rs = some t →
    ∃ r ∈ rs.take k, newton eps F f Fmin Fmax r 50 0 = some t := by
  intro k
  induction k with
  | zero => intro rs t h; cases h
  | succ k ih =>
    intro rs t h
    cases rs with
    | nil => cases h
    | cons r rs =>
      unfold newtonTries at h
      cases hN : newton eps F f Fmin Fmax r 50 0 with
      | some t' =>
        rw [hN] at h
        cases Option.some.inj h
        exact ⟨r, List.mem_cons_self, hN⟩
      | none =>
        rw [hN] at h
        obtain ⟨r', h1, h2⟩ := ih rs t h
        exact ⟨r', List.mem_cons_of_mem _ h1, h2⟩

theorem pickT_newton (eps : ℝ) (s : ExpPicker) (h : Ready s) (hn : 1 < s.nExp) (m : ℝ) (rs : List ℝ) (p : List ℝ) (hp : paramsFor s.slopes m = .ok p)
    (hl : p.length = 2 * s.nExp - 1) : s.pickT eps m rs = .ok (newtonTries eps (primSum (exponentials p)) (shape p)
      (primSum (exponentials p) s.ranges.tLo) (primSum (exponentials p) s.ranges.tHi) 5 rs) := by
  have e1 : primitive s.nExp p = primSum (exponentials p) := funext fun t => primitive_eq _ _ (by omega) (by omega) t
  have e2 : density s.nExp p = shape p := funext fun t => density_eq _ _ (by omega) (by omega) t
  unfold ExpPicker.pickT
  rw [if_neg (by rw [h.hinit]; decide), if_neg (by simp [h.hne]), hp, Outcome.ok_bind]
  have : ¬ ((p.length + 1) / 2 ≠ s.nExp) := not_not.2 (by omega)
  rw [if_neg this, if_neg (by omega), e1, e2]

/-- **several exponentials**, minimum not negative: a returned t' is not negative, not above the quantile `q` that one of the (at most five) random numbers
asks for, hence not above the maximum, and either the fraction or the value is reached within the tolerance. -/
theorem pickT_several (eps : ℝ) (s : ExpPicker) (h : Ready s) (hn : 1 < s.nExp) (h0 : 0 ≤ s.ranges.tLo) (m : ℝ) (rs : List ℝ) (hr : Uniforms rs)
    (hm : ∀ e ∈ s.slopes.head?, s.slopes.length = 1 ∨ m ≠ e.1) (t : ℝ) (ht : s.pickT eps m rs = .ok (some t)) :
    ∃ p, paramsFor s.slopes m = .ok p ∧ Falling p ∧ ∃ r ∈ rs.take 5, ∃ q, IsQuantile (shape p) s.ranges.tLo s.ranges.tHi r q ∧ 0 ≤ t ∧ t ≤ q ∧
      (∫ x in t..q, shape p x < 10 * eps * ∫ x in s.ranges.tLo..q, shape p x ∨ ∫ x in t..q, shape p x < 10 * eps * t * shape p t) := by
  obtain ⟨p, hp, hl, hf⟩ := paramsFor_ready s h m hm
  rw [pickT_newton eps s h hn m rs p hp hl] at ht
  obtain ⟨r, hr5, hN⟩ := newtonTries_some _ _ _ _ _ _ _ _ (Outcome.ok.inj ht)
  have hr' := hr r (List.mem_of_mem_take hr5)
  have hD := dens_shape p hf
  obtain ⟨q, hq, _⟩ := hD.quantile_exists h.ht ⟨hr'.1.le, hr'.2.le⟩
  have hFq := (hD.quantile_iff h.ht ⟨hr'.1.le, hr'.2.le⟩).1 hq
  obtain ⟨a, b, c⟩ := newton_sound hD hFq 50 0 t (h0.trans hq.1) hN
  refine ⟨p, hp, hf, r, hr5, q, hq, a, b, ?_⟩
  rw [hD.integral, hD.integral]
  rcases c with c | c
  · left
    have : primSum (exponentials p) q - primSum (exponentials p) s.ranges.tLo =
      r * (primSum (exponentials p) s.ranges.tHi - primSum (exponentials p) s.ranges.tLo) := by rw [hFq]; ring
    rw [this]
    linarith
  · right
    rw [div_lt_iff₀ (hD.hpos t)] at c
    linarith

end Rpwa.Pick
