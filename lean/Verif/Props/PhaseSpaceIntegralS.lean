import Verif.Props.PhaseSpaceIntegral
/-!
# C58: tabulated phase-space integrals, part 2: histories, filling, files
-/
namespace Rpwa.PSI

open Rpwa.MassDep Rpwa.PSI.Spec

/-! ### histories -/

/-- a sequence of evaluations with masses, nominal masses and widths (the values are dropped) -/
noncomputable def history (eval : ℕ → ℝ → ℝ) (s : State) (calls : List (ℝ × ℝ × ℝ)) : Outcome State :=
  calls.foldlM (fun s c => (amp eval s c.1 c.2.1 c.2.2).map Prod.snd) s

theorem amp_state {eval : ℕ → ℝ → ℝ} {s : State} {M M0 Gamma0 : ℝ} :
    (amp eval s M M0 Gamma0).map Prod.snd = (getInt0 eval s M0).map Prod.snd := by
  unfold amp
  dsimp only
  cases getInt0 eval s M0 <;> rfl

/-- what evaluations may do to a table -/
structure Grown (eval : ℕ → ℝ → ℝ) (M0s : List ℝ) (s s' : State) : Prop where
  old : ∀ p ∈ s.table, p ∈ s'.table
  new : ∀ p ∈ s'.table, p ∈ s.table ∨ (p.M ∈ M0s ∧ ∃ n, s.calls ≤ n ∧ n < s'.calls ∧ p.val = eval n p.M)
  calls : s.calls ≤ s'.calls

theorem getInt0_grown {eval : ℕ → ℝ → ℝ} {s s' : State} {lo hi M0 : ℝ} {r : Option ℝ} (h : Valid s.table lo hi)
    (hd : s.disk = .full s.table) (e : getInt0 eval s M0 = .ok (r, s')) :
    Valid s'.table lo hi ∧ s'.disk = .full s'.table ∧ Grown eval [M0] s s' ∧ Near s'.table M0 := by
  have hs := getInt0_spec (eval := eval) (M0 := M0) h
  by_cases hn : Near s.table M0
  · rw [hs.1 hn] at e
    cases e
    exact ⟨h, hd, ⟨fun p hp => hp, fun p hp => Or.inl hp, le_refl _⟩, hn⟩
  · by_cases hr : lo ≤ M0 ∧ M0 < hi
    · obtain ⟨t, e1, e2, e3⟩ := hs.2.1 hn hr.1 hr.2
      rw [e1] at e
      cases e
      refine ⟨e2, rfl, ⟨fun p hp => (e3 p).mpr (Or.inl hp), ?_, Nat.le_succ _⟩, ?_⟩
      · intro p hp
        rcases (e3 p).mp hp with hp | rfl
        · exact Or.inl hp
        · exact Or.inr ⟨by simp, s.calls, le_refl _, Nat.lt_succ_self _, rfl⟩
      · exact near_of_mem ((e3 ⟨M0, eval s.calls M0⟩).mpr (Or.inr rfl))
    · rw [hs.2.2 hn hr] at e
      cases e

/-- **C58** whatever is evaluated, the table stays ordered and keeps its range, no point is lost or changed, every new point
is an estimate at one of the nominal masses, and the file has the same table. -/
theorem history_spec {eval : ℕ → ℝ → ℝ} {lo hi : ℝ} : ∀ (calls : List (ℝ × ℝ × ℝ)) {s s' : State}, Valid s.table lo hi →
    s.disk = .full s.table → history eval s calls = .ok s' →
    Valid s'.table lo hi ∧ s'.disk = .full s'.table ∧ Grown eval (calls.map (·.2.1)) s s'
  | [], s, s', h, hd, e => by
    cases e
    exact ⟨h, hd, fun p hp => hp, fun p hp => Or.inl hp, le_refl _⟩
  | c :: cs, s, s', h, hd, e => by
    unfold history at e
    rw [List.foldlM_cons, amp_state] at e
    cases e1 : getInt0 eval s c.2.1 with
    | ok r =>
      rw [e1] at e
      obtain ⟨g1, g2, g3, -⟩ := getInt0_grown h hd e1
      obtain ⟨f1, f2, f3⟩ := history_spec cs g1 g2 e
      refine ⟨f1, f2, fun p hp => f3.old p (g3.old p hp), ?_, g3.calls.trans f3.calls⟩
      intro p hp
      rcases f3.new p hp with hp | ⟨h1, n, h2, h3, h4⟩
      · rcases g3.new p hp with hp | ⟨h1, n, h2, h3, h4⟩
        · exact Or.inl hp
        · exact Or.inr ⟨by simp at h1; simp [h1], n, h2, lt_of_lt_of_le h3 f3.calls, h4⟩
      · exact Or.inr ⟨List.mem_cons_of_mem _ h1, n, g3.calls.trans h2, h3, h4⟩
    | terminate => rw [e1] at e; cases e
    | ub => rw [e1] at e; cases e

/-- **C58** evaluations with nominal masses inside the table always return. -/
theorem history_returns {eval : ℕ → ℝ → ℝ} {lo hi : ℝ} : ∀ (calls : List (ℝ × ℝ × ℝ)) {s : State}, Valid s.table lo hi →
    s.disk = .full s.table → (∀ c ∈ calls, lo ≤ c.2.1 ∧ c.2.1 < hi) → ∃ s', history eval s calls = .ok s'
  | [], s, _, _, _ => ⟨s, rfl⟩
  | c :: cs, s, h, hd, hc => by
    have hr := hc c (by simp)
    have : ∃ r, getInt0 eval s c.2.1 = .ok r := by
      by_cases hn : Near s.table c.2.1
      · exact ⟨_, getInt0_near hn⟩
      · obtain ⟨t, e, -⟩ := (getInt0_spec (eval := eval) h).2.1 hn hr.1 hr.2
        exact ⟨_, e⟩
    obtain ⟨r, e1⟩ := this
    obtain ⟨g1, g2, -⟩ := getInt0_grown h hd e1
    obtain ⟨s', e⟩ := history_returns cs g1 g2 (fun c hc' => hc c (List.mem_cons_of_mem _ hc'))
    refine ⟨s', ?_⟩
    unfold history at e ⊢
    rw [List.foldlM_cons, amp_state, e1]
    exact e

/-- **C58** evaluating twice with the same nominal mass makes no second estimate. -/
theorem amp_repeat {eval : ℕ → ℝ → ℝ} {s s' : State} {lo hi M M0 Gamma0 : ℝ} {a : Option ℂ} (h : Valid s.table lo hi)
    (hd : s.disk = .full s.table) (e : amp eval s M M0 Gamma0 = .ok (a, s')) (M' Gamma' : ℝ) :
    ∃ a', amp eval s' M' M0 Gamma' = .ok (a', s') := by
  have e1 : (getInt0 eval s M0).map Prod.snd = .ok s' := by rw [← amp_state (M := M) (Gamma0 := Gamma0), e]; rfl
  cases e2 : getInt0 eval s M0 with
  | ok r =>
    rw [e2] at e1
    cases e1
    obtain ⟨-, -, -, hn⟩ := getInt0_grown h hd e2
    unfold amp
    dsimp only
    rw [getInt0_near hn]
    exact ⟨_, rfl⟩
  | terminate => rw [e2] at e1; cases e1
  | ub => rw [e2] at e1; cases e1

/-- **C58**, false of the code: for a nominal mass not yet in the table, the first amplitude is calculated with the old table
in the numerator and the new estimate in the denominator, and differs from all later ones: here `i` is missed at the nominal
mass. -/
theorem amp_first_differs : ∃ (eval : ℕ → ℝ → ℝ) (s s' : State) (a : ℂ), Valid s.table 0 2 ∧ s.disk = .full s.table ∧
    amp eval s 1 1 1 = .ok (some a, s') ∧ a ≠ Complex.I ∧ amp eval s' 1 1 1 = .ok (some Complex.I, s') := by
  let t : Tab := [⟨0, 0⟩, ⟨2, 4⟩]
  let ev : ℕ → ℝ → ℝ := fun _ _ => 1
  have hv : Valid t 0 2 := ⟨by simp [Increasing, t], ⟨_, _, rfl, rfl⟩, ⟨[⟨0, 0⟩], ⟨2, 4⟩, rfl, rfl⟩, by norm_num⟩
  have hn : ¬Near t 1 := by
    rintro ⟨p, hp, hlt⟩
    simp only [t, List.mem_cons, List.not_mem_nil, or_false] at hp
    rcases hp with rfl | rfl <;> norm_num at hlt
  obtain ⟨t', e1, e2, e3⟩ := (getInt0_spec (eval := ev) (s := ⟨t, .full t, 0⟩) hv).2.1 hn (by norm_num) (by norm_num)
  have hI : Interpolates t 1 2 := ⟨⟨0, 0⟩, ⟨2, 4⟩, ⟨[], [], rfl⟩, by norm_num, by norm_num, by norm_num⟩
  refine ⟨ev, ⟨t, .full t, 0⟩, ⟨t', .full t', 1⟩, (((1 : ℝ) * 1 : ℝ) : ℂ) / (((1 * 1 - 1 * 1 : ℝ) : ℂ) -
    Complex.I * ((1 * (1 * (2 / 1)) : ℝ) : ℂ)), hv, rfl, ?_, ?_, ?_⟩
  · unfold amp
    dsimp only
    rw [e1, (interpolate_spec hv.increasing 1 2).mpr hI]
    simp only [Outcome.ok_bind]
    have : (do
      let d ← fdiv (← some 2) (← some (ev 0 1))
      bwForm (1 * 1) (1 * 1 - 1 * 1) (1 * (1 * d))) = some ((((1 : ℝ) * 1 : ℝ) : ℂ) / (((1 * 1 - 1 * 1 : ℝ) : ℂ) -
        Complex.I * ((1 * (1 * (2 / 1)) : ℝ) : ℂ))) := by
      change (fdiv 2 1).bind _ = _
      rw [fdiv_some one_ne_zero, Option.bind_some]
      exact bwForm_some (Or.inr (by norm_num))
    exact congrArg (fun x => Outcome.ok (x, (⟨t', .full t', 1⟩ : State))) this
  · intro h
    have h2 := congrArg Complex.im h
    simp at h2
  · exact amp_peak (s := ⟨t', .full t', 1⟩) (p := ⟨1, 1⟩) e2 ((e3 _).mpr (Or.inr rfl)) rfl (by norm_num) (by norm_num)
      (by norm_num)

/-! ### filling -/

theorem fillLoop_end (eval : ℕ → ℝ → ℝ) {M0 upper st M : ℝ} (n : ℕ) (h : ¬M ≤ upper) :
    fillLoop eval M0 upper st n M = some ([], n) := by
  rw [fillLoop]
  exact if_neg h

/-- the loop from grid point `k` on -/
theorem fillLoop_spec (eval : ℕ → ℝ → ℝ) (M0 thr : ℝ) {st : ℝ} (hst : 0 < st) : ∀ (j k : ℕ), j + k = 51 → 0 < k → ∀ n : ℕ,
    ∃ l n', fillLoop eval M0 (thr + 50 * st) st n (thr + k * st) = some (l, n') ∧ n ≤ n' ∧ Increasing l ∧
      (∀ p ∈ l, thr + (k - 1) * st < p.M) ∧ (k ≤ 50 → ∃ ms q, l = ms ++ [q] ∧ q.M = thr + 50 * st) ∧
      (∀ x, (∃ p ∈ l, p.M = x) ↔ (∃ i : ℕ, k ≤ i ∧ i ≤ 50 ∧ x = thr + i * st) ∨
        (x = M0 ∧ thr + (k - 1) * st < M0 ∧ M0 < thr + 50 * st)) ∧
      (∀ p ∈ l, ∃ m, n ≤ m ∧ m < n' ∧ p.val = eval m p.M)
  | 0, k, hk, _, n => by
    have hk' : k = 51 := by omega
    subst hk'
    refine ⟨[], n, fillLoop_end eval n ?_, le_refl _, by simp [Increasing], by simp, by omega, ?_, by simp⟩
    · push_cast; linarith
    · intro x
      constructor
      · rintro ⟨p, hp, -⟩; simp at hp
      · rintro (⟨i, h1, h2, -⟩ | ⟨-, h1, h2⟩)
        · omega
        · push_cast at h1; linarith
  | j + 1, k, hk, hk0, n => by
    have hk50 : (k : ℝ) ≤ 50 := by exact_mod_cast (by omega : k ≤ 50)
    have hle : thr + k * st ≤ thr + 50 * st := by nlinarith
    have hnext : thr + (k : ℝ) * st + st = thr + ((k + 1 : ℕ) : ℝ) * st := by push_cast; ring
    have hprev : thr + (k : ℝ) * st - st = thr + ((k : ℝ) - 1) * st := by ring
    have hcast : (((k + 1 : ℕ) : ℝ) - 1) = k := by push_cast; ring
    rw [fillLoop, if_pos hle, hnext, hprev]
    have gridlt : thr + ((k : ℝ) - 1) * st < thr + k * st := by nlinarith
    have lastpt : ∀ (l : List Point) (q : Point), q.M = thr + k * st →
        (k + 1 ≤ 50 → ∃ ms q, l = ms ++ [q] ∧ q.M = thr + 50 * st) → (¬ k + 1 ≤ 50 → l = []) →
        ∃ ms r, q :: l = ms ++ [r] ∧ r.M = thr + 50 * st := by
      intro l q hq h1 h2
      by_cases h50 : k + 1 ≤ 50
      · obtain ⟨ms, r, e, hr⟩ := h1 h50
        exact ⟨q :: ms, r, by rw [e]; rfl, hr⟩
      · refine ⟨[], q, by rw [h2 h50]; rfl, ?_⟩
        rw [hq]
        have : k = 50 := by omega
        rw [this]
        norm_num
    have empty : ∀ (n n' : ℕ) (l : List Point), ¬ k + 1 ≤ 50 →
        fillLoop eval M0 (thr + 50 * st) st n (thr + ((k + 1 : ℕ) : ℝ) * st) = some (l, n') → l = [] := by
      intro n n' l h50 e
      have : k = 50 := by omega
      subst this
      rw [fillLoop_end eval n (by push_cast; linarith)] at e
      cases e
      rfl
    by_cases hc : M0 > thr + ((k : ℝ) - 1) * st ∧ M0 < thr + k * st
    · rw [if_pos hc]
      obtain ⟨l, n', e, g1, g2, g3, g4, g5, g6⟩ := fillLoop_spec eval M0 thr hst j (k + 1) (by omega) (by omega) (n + 2)
      rw [hcast] at g3
      rw [hcast] at g5
      refine ⟨⟨M0, eval n M0⟩ :: ⟨thr + k * st, eval (n + 1) (thr + k * st)⟩ :: l, n', by rw [e]; rfl, by omega, ?_, ?_, ?_,
        ?_, ?_⟩
      · refine List.pairwise_cons.mpr ⟨?_, List.pairwise_cons.mpr ⟨fun q hq => g3 q hq, g2⟩⟩
        intro q hq
        rcases List.mem_cons.mp hq with rfl | hq
        · exact hc.2
        · exact hc.2.trans (g3 q hq)
      · intro q hq
        rcases List.mem_cons.mp hq with rfl | hq
        · exact hc.1
        · rcases List.mem_cons.mp hq with rfl | hq
          · exact gridlt
          · exact gridlt.trans (g3 q hq)
      · intro _
        obtain ⟨ms, r, e', hr⟩ := lastpt l ⟨thr + k * st, eval (n + 1) (thr + k * st)⟩ rfl g4 (fun h => empty _ _ _ h e)
        exact ⟨⟨M0, eval n M0⟩ :: ms, r, by rw [e']; rfl, hr⟩
      · intro x
        have h1 : (∃ p ∈ (⟨M0, eval n M0⟩ :: ⟨thr + k * st, eval (n + 1) (thr + k * st)⟩ :: l : List Point), p.M = x) ↔
            (M0 = x ∨ thr + k * st = x ∨ ∃ p ∈ l, p.M = x) := by simp
        rw [h1, g5 x]
        constructor
        · rintro (rfl | rfl | ⟨i, a, b, c⟩ | ⟨a, b, c⟩)
          · exact Or.inr ⟨rfl, hc.1, lt_of_lt_of_le hc.2 hle⟩
          · exact Or.inl ⟨k, le_refl _, by omega, rfl⟩
          · exact Or.inl ⟨i, by omega, b, c⟩
          · exact Or.inr ⟨a, hc.1, c⟩
        · rintro (⟨i, a, b, c⟩ | ⟨a, b, c⟩)
          · rcases Nat.eq_or_lt_of_le a with rfl | a
            · exact Or.inr (Or.inl c.symm)
            · exact Or.inr (Or.inr (Or.inl ⟨i, a, b, c⟩))
          · exact Or.inl a.symm
      · intro q hq
        rcases List.mem_cons.mp hq with rfl | hq
        · exact ⟨n, le_refl _, by omega, rfl⟩
        · rcases List.mem_cons.mp hq with rfl | hq
          · exact ⟨n + 1, by omega, by omega, rfl⟩
          · obtain ⟨m, h1, h2, h3⟩ := g6 q hq
            exact ⟨m, by omega, h2, h3⟩
    · rw [if_neg hc]
      obtain ⟨l, n', e, g1, g2, g3, g4, g5, g6⟩ := fillLoop_spec eval M0 thr hst j (k + 1) (by omega) (by omega) (n + 1)
      rw [hcast] at g3
      rw [hcast] at g5
      refine ⟨⟨thr + k * st, eval n (thr + k * st)⟩ :: l, n', by rw [e]; rfl, by omega, ?_, ?_, ?_, ?_, ?_⟩
      · exact List.pairwise_cons.mpr ⟨fun q hq => g3 q hq, g2⟩
      · intro q hq
        rcases List.mem_cons.mp hq with rfl | hq
        · exact gridlt
        · exact gridlt.trans (g3 q hq)
      · intro _
        exact lastpt l ⟨thr + k * st, eval n (thr + k * st)⟩ rfl g4 (fun h => empty _ _ _ h e)
      · intro x
        have h1 : (∃ p ∈ (⟨thr + k * st, eval n (thr + k * st)⟩ :: l : List Point), p.M = x) ↔
            (thr + k * st = x ∨ ∃ p ∈ l, p.M = x) := by simp
        rw [h1, g5 x]
        constructor
        · rintro (rfl | ⟨i, a, b, c⟩ | ⟨a, b, c⟩)
          · exact Or.inl ⟨k, le_refl _, by omega, rfl⟩
          · exact Or.inl ⟨i, by omega, b, c⟩
          · exact Or.inr ⟨a, gridlt.trans b, c⟩
        · rintro (⟨i, a, b, c⟩ | ⟨a, b, c⟩)
          · rcases Nat.eq_or_lt_of_le a with rfl | a
            · exact Or.inl c.symm
            · exact Or.inr (Or.inl ⟨i, a, b, c⟩)
          · have : thr + k * st ≤ M0 := by
              by_contra hlt
              exact hc ⟨b, not_le.mp hlt⟩
            rcases this.eq_or_lt with h | h
            · exact Or.inl (h.trans a.symm)
            · exact Or.inr (Or.inr ⟨a, h, c⟩)
      · intro q hq
        rcases List.mem_cons.mp hq with rfl | hq
        · exact ⟨n, le_refl _, by omega, rfl⟩
        · obtain ⟨m, h1, h2, h3⟩ := g6 q hq
          exact ⟨m, by omega, h2, h3⟩

/-- **C58** a new table reaches from the threshold, with integral 0, to the configured upper bound in 50 equal steps, contains
the nominal mass of the isobar if it is in between, and all its other values are estimates at their masses. -/
theorem fill_spec (eval : ℕ → ℝ → ℝ) {thr upper : ℝ} (h : thr < upper) (M0 : ℝ) (n : ℕ) :
    ∃ t n', fill eval thr M0 upper n = some (t, n') ∧ Valid t thr upper ∧
      (∀ x, (∃ p ∈ t, p.M = x) ↔ (∃ i : ℕ, i ≤ 50 ∧ x = thr + i * ((upper - thr) / 50)) ∨
        (x = M0 ∧ thr < M0 ∧ M0 < upper)) ∧
      (∀ p ∈ t, (p.M = thr ∧ p.val = 0) ∨ (thr < p.M ∧ ∃ m, n ≤ m ∧ m < n' ∧ p.val = eval m p.M)) := by
  have hst : 0 < (upper - thr) / 50 := by linarith
  have hup : thr + 50 * ((upper - thr) / 50) = upper := by ring
  obtain ⟨l, n', e, g1, g2, g3, g4, g5, g6⟩ := fillLoop_spec eval M0 thr hst 50 1 rfl (by omega) n
  rw [hup] at e
  have h0 : thr + ((1 : ℕ) - 1 : ℝ) * ((upper - thr) / 50) = thr := by push_cast; ring
  rw [h0] at g3 g5
  rw [hup] at g4 g5
  refine ⟨⟨thr, 0⟩ :: l, n', ?_, ⟨?_, ⟨_, _, rfl, rfl⟩, ?_, h⟩, ?_, ?_⟩
  · unfold fill
    dsimp only
    rw [show thr + (upper - thr) / 50 = thr + ((1 : ℕ) : ℝ) * ((upper - thr) / 50) by push_cast; ring, e]
    rfl
  · exact List.pairwise_cons.mpr ⟨fun q hq => g3 q hq, g2⟩
  · obtain ⟨ms, q, e1, e2⟩ := g4 (by omega)
    exact ⟨⟨thr, 0⟩ :: ms, q, by rw [e1]; rfl, e2⟩
  · intro x
    have h1 : (∃ p ∈ (⟨thr, 0⟩ :: l : List Point), p.M = x) ↔ (thr = x ∨ ∃ p ∈ l, p.M = x) := by simp
    rw [h1, g5 x]
    constructor
    · rintro (rfl | ⟨i, a, b, c⟩ | a)
      · exact Or.inl ⟨0, by omega, by push_cast; ring⟩
      · exact Or.inl ⟨i, b, c⟩
      · exact Or.inr a
    · rintro (⟨i, b, c⟩ | a)
      · rcases Nat.eq_zero_or_pos i with rfl | hi
        · exact Or.inl (by rw [c]; push_cast; ring)
        · exact Or.inr (Or.inl ⟨i, hi, b, c⟩)
      · exact Or.inr (Or.inr a)
  · intro p hp
    rcases List.mem_cons.mp hp with rfl | hp
    · exact Or.inl ⟨rfl, rfl⟩
    · exact Or.inr ⟨g3 p hp, g6 p hp⟩

/-- **C58**, false of the code: with an upper bound equal to the threshold the table is filled forever. -/
theorem fill_forever (eval : ℕ → ℝ → ℝ) (thr M0 : ℝ) (n : ℕ) : fill eval thr M0 thr n = none := by
  have key : ∀ (upper st M : ℝ) (n : ℕ) (r : List Point × ℕ), fillLoop eval M0 upper st n M = some r →
      st = 0 → upper < M := by
    intro upper st M n r h
    refine fillLoop.partial_correctness eval M0 upper st (fun _ M _ => st = 0 → upper < M) ?_ n M r h
    intro fl ih n M r e h0
    by_contra hle
    have hle := not_lt.mp hle
    rw [if_pos hle] at e
    split at e
    · cases e1 : fl (n + 2) (M + st) with
      | none => rw [e1] at e; cases e
      | some r' =>
        have := ih _ _ _ e1 h0
        rw [h0] at this
        linarith
    · cases e1 : fl (n + 1) (M + st) with
      | none => rw [e1] at e; cases e
      | some r' =>
        have := ih _ _ _ e1 h0
        rw [h0] at this
        linarith
  unfold fill
  dsimp only
  cases e : fillLoop eval M0 thr ((thr - thr) / 50) n (thr + (thr - thr) / 50) with
  | none => rfl
  | some r =>
    have := key _ _ _ _ _ e (by rw [sub_self, zero_div])
    rw [sub_self, zero_div, add_zero] at this
    exact (lt_irrefl _ this).elim

/-- **C58**, false of the code: with an upper bound below the threshold the table has a single point, no integral can be
looked up, and no error is reported. -/
theorem fill_below (eval : ℕ → ℝ → ℝ) {thr upper : ℝ} (h : upper < thr) (M0 : ℝ) (n : ℕ) :
    fill eval thr M0 upper n = some ([⟨thr, 0⟩], n) ∧ ∀ M, interpolate [⟨thr, 0⟩] M = none := by
  constructor
  · unfold fill
    dsimp only
    rw [fillLoop_end eval n (by linarith)]
    rfl
  · intro M
    unfold interpolate findInterval
    dsimp only
    rw [sub_self thr, fdiv_zero]
    rfl

/-! ### the file of the table -/

/-- the state after a sequence of steps -/
def steps (w : Disk × (ℕ → Phase)) (as : List Action) : Disk × (ℕ → Phase) := as.foldl step w

/-- programs run one after the other, and none ends while it rewrites the file -/
inductive Orderly : Disk × (ℕ → Phase) → List Action → Prop where
  | nil (w) : Orderly w []
  | start (w i t as) : (∀ j, w.2 j = .idle) → Orderly (step w (.start i t)) as → Orderly w (.start i t :: as)
  | create (w i as) : Orderly (step w (.create i)) as → Orderly w (.create i :: as)
  | truncate (w i t as) : Orderly (step w (.truncate i t)) as → Orderly w (.truncate i t :: as)
  | close (w i as) : Orderly (step w (.close i)) as → Orderly w (.close i :: as)
  | stop (w i as) : (∀ t, w.2 i ≠ .updating t) → Orderly (step w (.stop i)) as → Orderly w (.stop i :: as)

/-- the situations met by programs that run one after the other -/
def Fine (w : Disk × (ℕ → Phase)) : Prop :=
  ((∀ j, w.2 j = .idle) ∧ w.1 ≠ .noTree) ∨
  ∃ i, (∀ j, j ≠ i → w.2 j = .idle) ∧
    ((∃ t, w.2 i = .creating t ∧ w.1 = .absent) ∨ (∃ t, w.2 i = .ready t ∧ w.1 = .full t) ∨ (∃ t, w.2 i = .updating t))

theorem fine_upd {d : Disk} {f : ℕ → Phase} {i : ℕ} (hj : ∀ j, j ≠ i → f j = .idle) (ph : Phase)
    (h : (∃ t, ph = .creating t ∧ d = .absent) ∨ (∃ t, ph = .ready t ∧ d = .full t) ∨ (∃ t, ph = .updating t)) :
    Fine (d, Function.update f i ph) := by
  refine Or.inr ⟨i, fun j hne => ?_, ?_⟩
  · simp only [Function.update_of_ne hne]
    exact hj j hne
  · simpa using h

theorem fine_step {w : Disk × (ℕ → Phase)} (h : Fine w) (a : Action)
    (hstart : ∀ i t, a = .start i t → ∀ j, w.2 j = .idle) (hstop : ∀ i, a = .stop i → ∀ t, w.2 i ≠ .updating t) :
    Fine (step w a) := by
  obtain ⟨d, f⟩ := w
  cases a with
  | start i t =>
    have hidle := hstart i t rfl
    rcases h with ⟨-, hd⟩ | ⟨i', -, h⟩
    · dsimp only at hidle hd
      unfold step
      dsimp only
      rw [hidle i]
      cases d with
      | absent => exact fine_upd (fun j _ => hidle j) _ (Or.inl ⟨t, rfl, rfl⟩)
      | noTree => exact (hd rfl).elim
      | full t' => exact fine_upd (fun j _ => hidle j) _ (Or.inr (Or.inl ⟨t', rfl, rfl⟩))
    · dsimp only at hidle h
      rw [hidle i'] at h
      rcases h with ⟨t, h, -⟩ | ⟨t, h, -⟩ | ⟨t, h⟩ <;> cases h
  | create i =>
    unfold step
    dsimp only
    rcases h with ⟨hidle, hd⟩ | ⟨i', hj, h⟩
    · dsimp only at hidle
      rw [hidle i]
      exact Or.inl ⟨hidle, hd⟩
    · dsimp only at hj h
      by_cases hi : i = i'
      · subst hi
        rcases h with ⟨t, h, hd⟩ | ⟨t, h, hd⟩ | ⟨t, h⟩
        · rw [h, hd]
          exact fine_upd hj _ (Or.inr (Or.inl ⟨t, rfl, rfl⟩))
        · rw [h]
          exact Or.inr ⟨i, hj, Or.inr (Or.inl ⟨t, h, hd⟩)⟩
        · rw [h]
          exact Or.inr ⟨i, hj, Or.inr (Or.inr ⟨t, h⟩)⟩
      · rw [hj i hi]
        exact Or.inr ⟨i', hj, h⟩
  | truncate i t' =>
    unfold step
    dsimp only
    rcases h with ⟨hidle, hd⟩ | ⟨i', hj, h⟩
    · dsimp only at hidle
      rw [hidle i]
      exact Or.inl ⟨hidle, hd⟩
    · dsimp only at hj h
      by_cases hi : i = i'
      · subst hi
        rcases h with ⟨t, h, hd⟩ | ⟨t, h, hd⟩ | ⟨t, h⟩
        · rw [h]
          exact Or.inr ⟨i, hj, Or.inl ⟨t, h, hd⟩⟩
        · rw [h]
          exact fine_upd hj _ (Or.inr (Or.inr ⟨t', rfl⟩))
        · rw [h]
          exact Or.inr ⟨i, hj, Or.inr (Or.inr ⟨t, h⟩)⟩
      · rw [hj i hi]
        exact Or.inr ⟨i', hj, h⟩
  | close i =>
    unfold step
    dsimp only
    rcases h with ⟨hidle, hd⟩ | ⟨i', hj, h⟩
    · dsimp only at hidle
      rw [hidle i]
      exact Or.inl ⟨hidle, hd⟩
    · dsimp only at hj h
      by_cases hi : i = i'
      · subst hi
        rcases h with ⟨t, h, hd⟩ | ⟨t, h, hd⟩ | ⟨t, h⟩
        · rw [h]
          exact Or.inr ⟨i, hj, Or.inl ⟨t, h, hd⟩⟩
        · rw [h]
          exact Or.inr ⟨i, hj, Or.inr (Or.inl ⟨t, h, hd⟩)⟩
        · rw [h]
          exact fine_upd hj _ (Or.inr (Or.inl ⟨t, rfl, rfl⟩))
      · rw [hj i hi]
        exact Or.inr ⟨i', hj, h⟩
  | stop i =>
    have hs := hstop i rfl
    unfold step
    dsimp only at hs ⊢
    have hupd : (∀ j, j ≠ i → f j = .idle) → d ≠ .noTree → Fine (d, Function.update f i .idle) := by
      intro hj hd
      refine Or.inl ⟨fun j => ?_, hd⟩
      by_cases hji : j = i
      · subst hji; simp
      · simp only [Function.update_of_ne hji]
        exact hj j hji
    rcases h with ⟨hidle, hd⟩ | ⟨i', hj, h⟩
    · dsimp only at hidle
      rw [hidle i]
      exact hupd (fun j _ => hidle j) hd
    · dsimp only at hj h
      by_cases hi : i = i'
      · subst hi
        rcases h with ⟨t, h, hd⟩ | ⟨t, h, hd⟩ | ⟨t, h⟩
        · rw [h]
          exact hupd hj (by rw [hd]; intro h; cases h)
        · rw [h]
          exact hupd hj (by rw [hd]; intro h; cases h)
        · exact (hs t h).elim
      · rw [hj i hi]
        dsimp only
        rw [show Function.update f i Phase.idle = f by rw [← hj i hi]; exact Function.update_eq_self i f]
        exact Or.inr ⟨i', hj, h⟩

/-- **C58** programs that run one after the other and do not end while they rewrite the file never dereference a null pointer,
whatever they add to the table and whenever they end otherwise, and a program with a table has the one of the file. -/
theorem file_orderly {w : Disk × (ℕ → Phase)} {as : List Action} (ho : Orderly w as) (h : Fine w) :
    (∀ i, (steps w as).2 i ≠ .dead) ∧ (∀ i t, (steps w as).2 i = .ready t → (steps w as).1 = .full t) := by
  have hf : Fine (steps w as) := by
    induction ho with
    | nil w => exact h
    | start w i t as h1 _ ih => exact ih (fine_step h _ (fun _ _ _ => h1) (fun _ h => by cases h))
    | create w i as _ ih => exact ih (fine_step h _ (fun _ _ h => by cases h) (fun _ h => by cases h))
    | truncate w i t as _ ih => exact ih (fine_step h _ (fun _ _ h => by cases h) (fun _ h => by cases h))
    | close w i as _ ih => exact ih (fine_step h _ (fun _ _ h => by cases h) (fun _ h => by cases h))
    | stop w i as h1 _ ih => exact ih (fine_step h _ (fun _ _ h => by cases h) (fun _ h => by cases h; exact h1))
  rcases hf with ⟨hidle, -⟩ | ⟨i', hj, hi⟩
  · constructor
    · intro i h
      rw [hidle i] at h
      cases h
    · intro i t h
      rw [hidle i] at h
      cases h
  · constructor
    · intro i h
      by_cases hii : i = i'
      · subst hii
        rcases hi with ⟨t, e, -⟩ | ⟨t, e, -⟩ | ⟨t, e⟩ <;> (rw [e] at h; cases h)
      · rw [hj i hii] at h; cases h
    · intro i t h
      by_cases hii : i = i'
      · subst hii
        rcases hi with ⟨t', e, e'⟩ | ⟨t', e, e'⟩ | ⟨t', e⟩
        · rw [e] at h; cases h
        · rw [e] at h; cases h; exact e'
        · rw [e] at h; cases h
      · rw [hj i hii] at h; cases h

/-- **C58**, false of the code: if a program ends while it rewrites the file, every later program dies, forever. -/
theorem file_crash (t t' : Tab) : let w := steps (.absent, fun _ => .idle) [.start 0 t, .create 0, .truncate 0 t', .stop 0]
    ∀ as : List Action, (steps w as).1 = .noTree ∧ (∀ i, (steps w as).2 i = .idle ∨ (steps w as).2 i = .dead) ∧
      ∀ i t, Action.start i t ∈ as → (steps w as).2 i = .dead := by
  intro w
  have inv : ∀ (as : List Action) (v : Disk × (ℕ → Phase)), v.1 = .noTree → (∀ i, v.2 i = .idle ∨ v.2 i = .dead) →
      (steps v as).1 = .noTree ∧ (∀ i, (steps v as).2 i = .idle ∨ (steps v as).2 i = .dead) ∧
      (∀ i, v.2 i = .dead → (steps v as).2 i = .dead) ∧ ∀ i t, Action.start i t ∈ as → (steps v as).2 i = .dead := by
    intro as
    induction as with
    | nil => intro v h1 h2; exact ⟨h1, h2, fun i h => h, fun i t h => by simp at h⟩
    | cons a as ih =>
      rintro ⟨d, f⟩ h1 h2
      dsimp only at h1 h2
      subst h1
      have hsame : ∀ i, (Function.update f i Phase.idle) = f ∨ f i = .dead := by
        intro i
        rcases h2 i with h | h
        · left; rw [← h]; exact Function.update_eq_self i f
        · exact Or.inr h
      have hstep : (step (.noTree, f) a).1 = .noTree ∧ (∀ i, (step (.noTree, f) a).2 i = .idle ∨
          (step (.noTree, f) a).2 i = .dead) ∧ (∀ i, f i = .dead → (step (.noTree, f) a).2 i = .dead) ∧
          (∀ i t, a = .start i t → (step (.noTree, f) a).2 i = .dead) := by
        cases a with
        | start i t =>
          rcases h2 i with h | h
          · have e : step (.noTree, f) (.start i t) = (.noTree, Function.update f i .dead) := by
              unfold step; dsimp only; rw [h]
            rw [e]
            refine ⟨rfl, fun j => ?_, fun j hj => ?_, fun j t h => ?_⟩
            · by_cases hji : j = i
              · subst hji; right; simp
              · simp only [Function.update_of_ne hji]; exact h2 j
            · by_cases hji : j = i
              · subst hji; simp
              · simp only [Function.update_of_ne hji]; exact hj
            · cases h; simp
          · have e : step (.noTree, f) (.start i t) = (.noTree, f) := by
              unfold step; dsimp only; rw [h]
            rw [e]
            exact ⟨rfl, h2, fun j hj => hj, fun j t h' => by cases h'; exact h⟩
        | create i =>
          have e : step (.noTree, f) (.create i) = (.noTree, f) := by
            unfold step; dsimp only; rcases h2 i with h | h <;> rw [h]
          rw [e]
          exact ⟨rfl, h2, fun j hj => hj, fun j t h' => by cases h'⟩
        | truncate i t =>
          have e : step (.noTree, f) (.truncate i t) = (.noTree, f) := by
            unfold step; dsimp only; rcases h2 i with h | h <;> rw [h]
          rw [e]
          exact ⟨rfl, h2, fun j hj => hj, fun j t h' => by cases h'⟩
        | close i =>
          have e : step (.noTree, f) (.close i) = (.noTree, f) := by
            unfold step; dsimp only; rcases h2 i with h | h <;> rw [h]
          rw [e]
          exact ⟨rfl, h2, fun j hj => hj, fun j t h' => by cases h'⟩
        | stop i =>
          have e : step (.noTree, f) (.stop i) = (.noTree, f) := by
            unfold step
            dsimp only
            rcases h2 i with h | h
            · rw [h]; dsimp only; rw [← h, Function.update_eq_self]
            · rw [h]
          rw [e]
          exact ⟨rfl, h2, fun j hj => hj, fun j t h' => by cases h'⟩
      obtain ⟨g1, g2, g3, g4⟩ := ih (step (.noTree, f) a) hstep.1 hstep.2.1
      refine ⟨g1, g2, fun i hi => g3 i (hstep.2.2.1 i hi), fun i t hm => ?_⟩
      rcases List.mem_cons.mp hm with hm | hm
      · exact g3 i (hstep.2.2.2 i t hm.symm)
      · exact g4 i t hm
  intro as
  have hw1 : w.1 = .noTree := by simp [w, steps, step]
  have hw2 : ∀ i, w.2 i = .idle ∨ w.2 i = .dead := by
    intro i
    left
    by_cases hi : i = 0
    · subst hi; simp [w, steps, step]
    · simp [w, steps, step, hi]
  obtain ⟨g1, g2, -, g4⟩ := inv as w hw1 hw2
  exact ⟨g1, g2, g4⟩

/-- **C58**, false of the code: of two programs that start without a file, the second to write it dies. -/
theorem file_race (t t' : Tab) :
    (steps (.absent, fun _ => .idle) [.start 0 t, .start 1 t', .create 0, .create 1]).2 1 = .dead := by
  simp [steps, step]

/-- **C58**, false of the code: a program that starts while another one rewrites the file dies. -/
theorem file_torn (t t' t'' : Tab) :
    (steps (.full t, fun _ => .idle) [.start 0 t, .truncate 0 t', .start 1 t'']).2 1 = .dead := by
  simp [steps, step]

/-- **C58**, false of the code: of two programs that add points, the points of the first to write are lost from the file. -/
theorem file_lost (t t' t'' : Tab) : (steps (.full t, fun _ => .idle)
    [.start 0 t, .start 1 t, .truncate 0 t', .close 0, .truncate 1 t'', .close 1]).1 = .full t'' := by
  simp [steps, step]

/-! ### the hypotheses are met -/

example : ∃ t n', fill (fun _ M => M) 0 1 2 0 = some (t, n') ∧ Valid t 0 2 ∧ (∃ p ∈ t, p.M = 1) ∧
    history (fun _ M => M) ⟨t, .full t, n'⟩ [] = .ok ⟨t, .full t, n'⟩ := by
  obtain ⟨t, n', e, hv, hm, -⟩ := fill_spec (fun _ M => M) (show (0 : ℝ) < 2 by norm_num) 1 0
  exact ⟨t, n', e, hv, (hm 1).mpr (Or.inr ⟨rfl, by norm_num, by norm_num⟩), rfl⟩

example (t t' : Tab) : Orderly (.absent, fun _ => .idle)
    [.start 0 t, .create 0, .truncate 0 t', .close 0, .stop 0, .start 1 t] := by
  refine .start _ _ _ _ (fun _ => rfl) (.create _ _ _ (.truncate _ _ _ _ (.close _ _ _ (.stop _ _ _ ?_ (.start _ _ _ _ ?_
    (.nil _))))))
  · simp [step]
  · intro j
    by_cases hj : j = 0
    · subst hj; simp [step]
    · simp [step, hj]

end Rpwa.PSI
