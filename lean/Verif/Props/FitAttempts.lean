import Verif.Spec.FitAttempts
import Verif.Lemmas.PwaFit
import Mathlib.Data.Finset.Card
import Mathlib.Data.Fintype.Card
/-! # C88: seeds and the choice of the results that get matrices -/
namespace Rpwa.Attempts

open Rpwa.Lik Rpwa.Fit Rpwa.PwaFit

/-! ### seeds -/

theorem newSeed_some (rand : ℕ → ℕ) (seeds : List ℕ) (fuel k s k' : ℕ) (h : newSeed rand seeds fuel k = some (s, k')) :
    k < k' ∧ s = rand (k' - 1) ∧ s ∉ seeds ∧ ∀ i, k ≤ i → i < k' - 1 → rand i ∈ seeds := by
  induction fuel generalizing k with
  | zero => cases h
  | succ fuel ih =>
    unfold newSeed at h
    by_cases hm : rand k ∈ seeds
    · rw [if_pos hm] at h
      obtain ⟨a, b, c, d⟩ := ih _ h
      refine ⟨by omega, b, c, fun i h1 h2 => ?_⟩
      rcases Nat.eq_or_lt_of_le h1 with h1 | h1
      · rw [← h1]; exact hm
      · exact d i h1 h2
    · rw [if_neg hm] at h
      cases h
      exact ⟨by omega, rfl, hm, fun i h1 h2 => by omega⟩

theorem newSeed_none (rand : ℕ → ℕ) (seeds : List ℕ) (fuel k : ℕ) (h : newSeed rand seeds fuel k = none) :
    ∀ i, k ≤ i → i < k + fuel → rand i ∈ seeds := by
  induction fuel generalizing k with
  | zero => intro i h1 h2; omega
  | succ fuel ih =>
    unfold newSeed at h
    by_cases hm : rand k ∈ seeds
    · rw [if_pos hm] at h
      intro i h1 h2
      rcases Nat.eq_or_lt_of_le h1 with h1 | h1
      · rw [← h1]; exact hm
      · exact ih _ h i h1 (by omega)
    · rw [if_neg hm] at h; cases h

/-- the seeds drawn are exactly the values that have occurred, each once. -/
theorem drawSeeds_some (rand : ℕ → ℕ) (fuel n : ℕ) (seeds : List ℕ) (k : ℕ) (h : drawSeeds rand fuel n = some (seeds, k)) :
    seeds.length = n ∧ seeds.Nodup ∧ ∀ s, s ∈ seeds ↔ ∃ i < k, rand i = s := by
  induction n generalizing seeds k with
  | zero => cases h; exact ⟨rfl, List.nodup_nil, by simp⟩
  | succ n ih =>
    unfold drawSeeds at h
    cases h1 : drawSeeds rand fuel n with
    | none => rw [h1] at h; cases h
    | some p =>
      obtain ⟨ss, k0⟩ := p
      rw [h1] at h
      cases h2 : newSeed rand ss fuel k0 with
      | none => simp [h2] at h
      | some q =>
        obtain ⟨s, k1⟩ := q
        simp only [h2, Option.bind_eq_bind, Option.bind_some, Option.some.injEq, Prod.mk.injEq] at h
        obtain ⟨rfl, rfl⟩ := h
        obtain ⟨a, b, c⟩ := ih _ _ h1
        obtain ⟨e1, e2, e3, e4⟩ := newSeed_some _ _ _ _ _ _ h2
        refine ⟨by simp [a], ?_, ?_⟩
        · rw [List.nodup_append]
          refine ⟨b, List.nodup_singleton _, ?_⟩
          intro x hx y hy hxy
          rw [List.mem_singleton] at hy
          exact e3 (hy ▸ hxy ▸ hx)
        · intro x
          rw [List.mem_append, List.mem_singleton, c]
          constructor
          · rintro (⟨i, hi, rfl⟩ | rfl)
            · exact ⟨i, by omega, rfl⟩
            · exact ⟨k1 - 1, by omega, e2.symm⟩
          · rintro ⟨i, hi, rfl⟩
            by_cases hlt : i < k0
            · exact Or.inl ⟨i, hlt, rfl⟩
            · by_cases hl : i < k1 - 1
              · exact Or.inl ((c _).1 (e4 i (by omega) hl))
              · right; rw [e2]; congr 1; omega

/-- **C88, seeds.** The number of seeds is the number of attempts; a single attempt uses the given seed; seed 0 is passed on to every
attempt; otherwise the seeds are different from each other and lie in the range of the random numbers. -/
theorem seeds_spec (rand : ℕ → ℕ) (fuel seed attempts : ℕ) (seeds : List ℕ) (h : seedsOf rand fuel seed attempts = some seeds) :
    seeds.length = attempts ∧ (attempts = 1 → seeds = [seed]) ∧ (seed = 0 → ∀ s ∈ seeds, s = 0) ∧
      (seed ≠ 0 → seeds.Nodup) ∧
      (seed ≠ 0 → attempts ≠ 1 → (∀ i, 1000 ≤ rand i ∧ rand i ≤ 2 ^ 32 - 1) → ∀ s ∈ seeds, 1000 ≤ s ∧ s ≤ 2 ^ 32 - 1) := by
  unfold seedsOf at h
  by_cases h1 : attempts = 1
  · rw [if_pos h1] at h
    cases h
    refine ⟨h1.symm, fun _ => rfl, ?_, fun _ => List.nodup_singleton _, fun _ h => absurd h1 h⟩
    intro h0 s hs
    rw [List.mem_singleton] at hs; omega
  · rw [if_neg h1] at h
    by_cases h0 : seed = 0
    · rw [if_pos h0] at h
      cases h
      exact ⟨List.length_replicate, fun e => absurd e h1, fun _ s hs => List.eq_of_mem_replicate hs, fun e => absurd h0 e, fun e => absurd h0 e⟩
    · rw [if_neg h0, Option.map_eq_some_iff] at h
      obtain ⟨⟨ss, k⟩, hd, rfl⟩ := h
      obtain ⟨a, b, c⟩ := drawSeeds_some _ _ _ _ _ hd
      refine ⟨a, fun e => absurd e h1, fun e => absurd e h0, fun _ => b, ?_⟩
      intro _ _ hr s hs
      obtain ⟨i, _, rfl⟩ := (c s).1 hs
      exact hr i

/-- **C88, seeds exist.** The loop ends if and only if the random numbers take at least as many different values as there are attempts. -/
theorem seeds_exist (rand : ℕ → ℕ) (n : ℕ) : (∃ fuel seeds k, drawSeeds rand fuel n = some (seeds, k)) ↔
    ∃ vals : List ℕ, vals.Nodup ∧ vals.length = n ∧ ∀ v ∈ vals, ∃ i, rand i = v := by
  constructor
  · rintro ⟨fuel, seeds, k, h⟩
    obtain ⟨a, b, c⟩ := drawSeeds_some _ _ _ _ _ h
    exact ⟨seeds, b, a, fun v hv => let ⟨i, _, e⟩ := (c v).1 hv; ⟨i, e⟩⟩
  · rintro ⟨vals, hnd, hlen, hv⟩
    choose! pos hpos using hv
    -- a bound on the positions of all values
    have hb : ∃ N, ∀ v ∈ vals, pos v < N := by
      refine ⟨(vals.map pos).sum + 1, fun v hv => Nat.lt_succ_of_le ?_⟩
      exact List.single_le_sum (fun _ _ => Nat.zero_le _) _ (List.mem_map.2 ⟨v, hv, rfl⟩)
    obtain ⟨N, hN⟩ := hb
    refine ⟨N, ?_⟩
    have key : ∀ m, m ≤ n → ∃ seeds k, drawSeeds rand N m = some (seeds, k) := by
      intro m
      induction m with
      | zero => intro _; exact ⟨_, _, rfl⟩
      | succ m ih =>
        intro hm
        obtain ⟨ss, k, hd⟩ := ih (by omega)
        obtain ⟨a, b, c⟩ := drawSeeds_some _ _ _ _ _ hd
        cases hs : newSeed rand ss N k with
        | some q => exact ⟨ss ++ [q.1], q.2, by unfold drawSeeds; rw [hd]; simp only [Option.bind_eq_bind, Option.bind_some, hs]⟩
        | none =>
          exfalso
          have hall := newSeed_none _ _ _ _ hs
          have hsub : vals ⊆ ss := by
            intro v hv
            by_cases hk : k ≤ pos v
            · rw [← hpos v hv]; exact hall _ hk (by have := hN v hv; omega)
            · exact (c v).2 ⟨pos v, by omega, hpos v hv⟩
          have := (List.subperm_of_subset hnd hsub).length_le
          omega
    exact key n le_rfl

/-- Finding: more attempts than there are values of the random numbers never get their seeds. -/
theorem seeds_too_many (rand : ℕ → ℕ) (hr : ∀ i, 1000 ≤ rand i ∧ rand i ≤ 2 ^ 32 - 1) (fuel seed attempts : ℕ) (h0 : seed ≠ 0)
    (h : 2 ^ 32 - 1000 < attempts) : seedsOf rand fuel seed attempts = none := by
  cases hs : seedsOf rand fuel seed attempts with
  | none => rfl
  | some seeds =>
    exfalso
    obtain ⟨a, _, _, b, c⟩ := seeds_spec _ _ _ _ _ hs
    have hc := c h0 (by omega) hr
    have hsub : seeds.toFinset ⊆ Finset.Icc 1000 (2 ^ 32 - 1) := by
      intro s hs
      rw [Finset.mem_Icc]; exact hc s (List.mem_toFinset.1 hs)
    have := Finset.card_le_card hsub
    rw [List.toFinset_card_of_nodup (b h0), Nat.card_Icc] at this
    omega

/-! ### the fits -/

/-- what the loop knows after some fits. -/
structure Inv (b : Best) : Prop where
  hbest : (b.results = [] ∧ b.best = none ∧ b.iBest = -1) ∨
    ∃ (i : ℕ) (r : FitResult), b.iBest = i ∧ b.results[i]? = some r ∧ b.best = some r.logLikelihood ∧ FirstMin b.results (fun _ => True) i
  hvalid : ((∀ r ∈ b.results, r.converged = false) ∧ b.bestValid = none ∧ b.iBestValid = -1) ∨
    ∃ (i : ℕ) (r : FitResult), b.iBestValid = i ∧ b.results[i]? = some r ∧ b.bestValid = some r.logLikelihood ∧
      FirstMin b.results (fun r => r.converged = true) i

theorem firstMin_snoc_new (rs : List FitResult) (P : FitResult → Prop) (r : FitResult) (hP : P r)
    (h : ∀ r' ∈ rs, P r' → r.logLikelihood < r'.logLikelihood) : FirstMin (rs ++ [r]) P rs.length := by
  refine ⟨r, by simp, hP, ?_⟩
  intro j r' hj hP'
  by_cases hlt : j < rs.length
  · rw [List.getElem?_append_left hlt] at hj
    have := h r' (List.mem_of_getElem? hj) hP'
    exact ⟨this.le, fun _ => this⟩
  · have hj' : j = rs.length := by
      have := (List.getElem?_eq_some_iff.1 hj).1
      simp at this; omega
    subst hj'
    have e : r' = r := by
      rw [List.getElem?_append_right le_rfl] at hj
      simpa using hj.symm
    subst e
    exact ⟨le_rfl, fun h => absurd h (lt_irrefl _)⟩

theorem firstMin_snoc_old (rs : List FitResult) (P : FitResult → Prop) (r r0 : FitResult) (i : ℕ) (h0 : rs[i]? = some r0)
    (hf : FirstMin rs P i) (h : P r → r0.logLikelihood ≤ r.logLikelihood) : FirstMin (rs ++ [r]) P i := by
  obtain ⟨r1, h1, hP, hall⟩ := hf
  have e : r1 = r0 := by rw [h0] at h1; exact (Option.some.inj h1).symm
  subst e
  have hi := (List.getElem?_eq_some_iff.1 h0).1
  refine ⟨r1, by rw [List.getElem?_append_left hi]; exact h0, hP, ?_⟩
  intro j r' hj hP'
  by_cases hlt : j < rs.length
  · rw [List.getElem?_append_left hlt] at hj
    exact hall j r' hj hP'
  · have e : r' = r := by
      have := (List.getElem?_eq_some_iff.1 hj).1
      have hj' : j = rs.length := by simp at this; omega
      subst hj'
      rw [List.getElem?_append_right le_rfl] at hj
      simpa using hj.symm
    subst e
    exact ⟨h hP', fun hc => by omega⟩

theorem inv_start : Inv Best.start := ⟨Or.inl ⟨rfl, rfl, rfl⟩, Or.inl ⟨by simp [Best.start], rfl, rfl⟩⟩

theorem add_results (b : Best) (r : FitResult) : (b.add r).results = b.results ++ [r] := rfl

theorem inv_add (b : Best) (r : FitResult) (h : Inv b) : Inv (b.add r) := by
  have hlen : ((b.results ++ [r]).length : ℤ) - 1 = (b.results.length : ℕ) := by simp
  have hget : (b.results ++ [r])[b.results.length]? = some r := by simp
  constructor
  · right
    by_cases hb : below r.logLikelihood b.best = true
    · refine ⟨b.results.length, r, ?_, hget, ?_, ?_⟩
      · simp only [Best.add, hb, if_true]; exact hlen
      · simp only [Best.add, hb, if_true]
      · apply firstMin_snoc_new _ _ _ trivial
        intro r' hr' _
        rcases h.hbest with ⟨e, _, _⟩ | ⟨i, r0, _, h2, h3, h4⟩
        · rw [e] at hr'; cases hr'
        · rw [h3] at hb
          have hlt : r.logLikelihood < r0.logLikelihood := of_decide_eq_true hb
          obtain ⟨r1, e1, _, hall⟩ := h4
          obtain ⟨j, hj⟩ := List.getElem?_of_mem hr'
          have hle := (hall j r' hj trivial).1
          rw [h2] at e1
          cases e1
          exact lt_of_lt_of_le hlt hle
    · rw [Bool.not_eq_true] at hb
      rcases h.hbest with ⟨_, e, _⟩ | ⟨i, r0, h1, h2, h3, h4⟩
      · rw [e] at hb; cases hb
      · refine ⟨i, r0, ?_, ?_, ?_, ?_⟩
        · simp only [Best.add, hb, Bool.false_eq_true, if_false]; exact h1
        · rw [add_results, List.getElem?_append_left (List.getElem?_eq_some_iff.1 h2).1]; exact h2
        · simp only [Best.add, hb, Bool.false_eq_true, if_false]; exact h3
        · refine firstMin_snoc_old _ _ _ _ _ h2 h4 fun _ => ?_
          rw [h3] at hb
          exact not_lt.1 (of_decide_eq_false hb)
  · by_cases hb : (r.converged && below r.logLikelihood b.bestValid) = true
    · right
      have hc : r.converged = true := by rw [Bool.and_eq_true] at hb; exact hb.1
      have hb2 : below r.logLikelihood b.bestValid = true := by rw [Bool.and_eq_true] at hb; exact hb.2
      refine ⟨b.results.length, r, ?_, hget, ?_, ?_⟩
      · simp only [Best.add, hb, if_true]; exact hlen
      · simp only [Best.add, hb, if_true]
      · refine firstMin_snoc_new _ (fun r => r.converged = true) _ hc ?_
        intro r' hr' hc'
        rcases h.hvalid with ⟨e, _, _⟩ | ⟨i, r0, _, h2, h3, h4⟩
        · rw [e r' hr'] at hc'; cases hc'
        · rw [h3] at hb2
          have hlt : r.logLikelihood < r0.logLikelihood := of_decide_eq_true hb2
          obtain ⟨r1, e1, _, hall⟩ := h4
          obtain ⟨j, hj⟩ := List.getElem?_of_mem hr'
          have hle := (hall j r' hj hc').1
          rw [h2] at e1
          cases e1
          exact lt_of_lt_of_le hlt hle
    · rw [Bool.not_eq_true] at hb
      rcases h.hvalid with ⟨e1, e2, e3⟩ | ⟨i, r0, h1, h2, h3, h4⟩
      · left
        refine ⟨?_, ?_, ?_⟩
        · intro r' hr'
          rw [add_results] at hr'
          rcases List.mem_append.1 hr' with hr' | hr'
          · exact e1 r' hr'
          · rw [List.mem_singleton] at hr'
            subst hr'
            rw [e2] at hb
            simpa [below] using hb
        · simp only [Best.add, hb, Bool.false_eq_true, if_false]; exact e2
        · simp only [Best.add, hb, Bool.false_eq_true, if_false]; exact e3
      · right
        refine ⟨i, r0, ?_, ?_, ?_, ?_⟩
        · simp only [Best.add, hb, Bool.false_eq_true, if_false]; exact h1
        · rw [add_results, List.getElem?_append_left (List.getElem?_eq_some_iff.1 h2).1]; exact h2
        · simp only [Best.add, hb, Bool.false_eq_true, if_false]; exact h3
        · refine firstMin_snoc_old _ (fun r => r.converged = true) _ _ _ h2 h4 fun hc => ?_
          rw [h3] at hb
          simp only [hc, Bool.true_and] at hb
          exact not_lt.1 (of_decide_eq_false hb)

theorem runFits_snoc (fit : ℕ → ℕ → Outcome FitResult) (seeds : List ℕ) (s : ℕ) :
    runFits fit (seeds ++ [s]) = runFits fit seeds >>= fun b => fit seeds.length s >>= fun r => .ok (b.add r) := by
  unfold runFits
  rw [List.zipIdx_append, List.foldlM_append]
  simp

theorem runFits_ok (fit : ℕ → ℕ → Outcome FitResult) (seeds : List ℕ) (b : Best) (h : runFits fit seeds = .ok b) :
    Fits fit seeds b.results ∧ Inv b := by
  induction seeds using List.reverseRecOn generalizing b with
  | nil => cases h; exact ⟨⟨rfl, by simp⟩, inv_start⟩
  | append_singleton seeds s ih =>
    rw [runFits_snoc] at h
    obtain ⟨b0, h0, h⟩ := Outcome.bind_eq_ok.1 h
    obtain ⟨r, hr, h⟩ := Outcome.bind_eq_ok.1 h
    cases h
    obtain ⟨⟨hl, hf⟩, hi⟩ := ih b0 h0
    refine ⟨⟨by simp [add_results, hl], ?_⟩, inv_add b0 r hi⟩
    intro k s' hk
    rw [add_results]
    by_cases hlt : k < seeds.length
    · rw [List.getElem?_append_left hlt] at hk
      obtain ⟨r', e1, e2⟩ := hf k s' hk
      exact ⟨r', by rw [List.getElem?_append_left (by omega)]; exact e1, e2⟩
    · have hk' : k = seeds.length := by
        have := (List.getElem?_eq_some_iff.1 hk).1
        simp at this; omega
      subst hk'
      rw [List.getElem?_append_right le_rfl] at hk
      have e : s' = s := by simpa using hk.symm
      subst e
      exact ⟨r, by rw [← hl]; simp, hr⟩

theorem fits_run (fit : ℕ → ℕ → Outcome FitResult) (seeds : List ℕ) (rs : List FitResult) (h : Fits fit seeds rs) :
    ∃ b, runFits fit seeds = .ok b ∧ b.results = rs := by
  induction seeds using List.reverseRecOn generalizing rs with
  | nil =>
    obtain ⟨hl, _⟩ := h
    exact ⟨Best.start, rfl, by rw [List.length_nil, List.length_eq_zero_iff] at hl; rw [hl]; rfl⟩
  | append_singleton seeds s ih =>
    obtain ⟨hl, hf⟩ := h
    have hl' : rs.length = seeds.length + 1 := by simpa using hl
    obtain ⟨r, hr1, hr2⟩ := hf seeds.length s (by simp)
    have hrs : rs = rs.take seeds.length ++ [r] := by
      obtain ⟨hlt, e⟩ := List.getElem?_eq_some_iff.1 hr1
      rw [← e, List.take_append_getElem, List.take_of_length_le (by omega)]
    obtain ⟨b, hb, hb2⟩ := ih (rs.take seeds.length) ⟨by rw [List.length_take]; omega, by
      intro k s' hk
      have hlt := (List.getElem?_eq_some_iff.1 hk).1
      obtain ⟨r', e1, e2⟩ := hf k s' (by rw [List.getElem?_append_left hlt]; exact hk)
      exact ⟨r', by rw [List.getElem?_take_of_lt hlt]; exact e1, e2⟩⟩
    refine ⟨b.add r, ?_, ?_⟩
    · rw [runFits_snoc, hb, Outcome.ok_bind, hr2, Outcome.ok_bind]
    · rw [add_results, hb2]; exact hrs.symm

/-- **C88, one result per seed.** Without `keepMatricesOnlyOfBest` the results are those of the fits, one per seed and in the order of the
seeds; the call returns if and only if every fit does. -/
theorem fitAll_all (add : FitResult → Outcome FitResult) (fit : ℕ → ℕ → Outcome FitResult) (seeds : List ℕ) (rs : List FitResult) :
    fitAll add fit false seeds = .ok rs ↔ Fits fit seeds rs := by
  unfold fitAll
  constructor
  · intro h
    obtain ⟨b, hb, h⟩ := Outcome.bind_eq_ok.1 h
    simp only [Bool.false_eq_true, if_false] at h
    cases h
    exact (runFits_ok fit seeds b hb).1
  · intro h
    obtain ⟨b, hb, rfl⟩ := fits_run fit seeds rs h
    rw [hb, Outcome.ok_bind]; rfl

theorem upgrade_nat (add : FitResult → Outcome FitResult) (rs : List FitResult) (i : ℕ) (r r' : FitResult) (hi : rs[i]? = some r)
    (ha : add r = .ok r') : upgrade add rs (i : ℤ) = .ok (rs.set i r') := by
  have hlt := (List.getElem?_eq_some_iff.1 hi).1
  unfold upgrade pyIndex
  rw [if_pos ⟨by omega, by omega⟩]
  simp only [Int.toNat_natCast, hi, ha]
  rfl

theorem upgrade_last (add : FitResult → Outcome FitResult) (rs : List FitResult) (r r' : FitResult) (hi : rs[rs.length - 1]? = some r)
    (ha : add r = .ok r') : upgrade add rs (-1) = .ok (rs.set (rs.length - 1) r') := by
  have hlt := (List.getElem?_eq_some_iff.1 hi).1
  unfold upgrade pyIndex
  rw [if_neg (by omega), if_pos ⟨by omega, by omega⟩]
  simp only [show ((rs.length : ℤ) + -1).toNat = rs.length - 1 by omega, hi, ha]
  rfl

theorem firstMin_unique (rs : List FitResult) (P : FitResult → Prop) (i j : ℕ) (hi : FirstMin rs P i) (hj : FirstMin rs P j) : i = j := by
  obtain ⟨r, r1, r2, r3⟩ := hi
  obtain ⟨s, s1, s2, s3⟩ := hj
  rcases lt_trichotomy i j with h | h | h
  · exact absurd ((s3 i r r1 r2).2 h) (not_lt.2 (r3 j s s1 s2).1)
  · exact h
  · exact absurd ((r3 j s s1 s2).2 h) (not_lt.2 (s3 i r r1 r2).1)

/-- **C88, matrices of the best results only.** If the fit `v` is the first of the converged fits with the smallest value and `b` the
first of all fits with the smallest value, then these two (or one, if they are the same) get matrices, and the other results are those of
the fits. -/
theorem fitAll_keep (add : FitResult → Outcome FitResult) (fit : ℕ → ℕ → Outcome FitResult) (seeds : List ℕ) (rs : List FitResult)
    (h : Fits fit seeds rs) (b v : ℕ) (hb : FirstMin rs (fun _ => True) b) (hv : FirstMin rs (fun r => r.converged = true) v)
    (rb rv rb' rv' : FitResult) (eb : rs[b]? = some rb) (ev : rs[v]? = some rv) (ab : add rb = .ok rb') (av : add rv = .ok rv') :
    fitAll add fit true seeds = .ok ((rs.set v rv').set b rb') ∧
    ∀ k r, rs[k]? = some r → ((rs.set v rv').set b rb')[k]? = some (if k = b then rb' else if k = v then rv' else r) := by
  obtain ⟨st, hst, hrs⟩ := fits_run fit seeds rs h
  obtain ⟨_, hinv⟩ := runFits_ok fit seeds st hst
  have hbl := (List.getElem?_eq_some_iff.1 eb).1
  have hvl := (List.getElem?_eq_some_iff.1 ev).1
  have i1 : st.iBest = b := by
    rcases hinv.hbest with ⟨e, _, _⟩ | ⟨i, r, e1, e2, e3, e4⟩
    · rw [hrs] at e; rw [e] at eb; simp at eb
    · rw [hrs] at e4
      rw [e1, firstMin_unique _ _ _ _ e4 hb]
  have i2 : st.iBestValid = v := by
    rcases hinv.hvalid with ⟨e, _, _⟩ | ⟨i, r, e1, e2, e3, e4⟩
    · obtain ⟨r, r1, r2, _⟩ := hv
      rw [hrs] at e
      rw [e r (List.mem_of_getElem? r1)] at r2; cases r2
    · rw [hrs] at e4
      rw [e1, firstMin_unique _ _ _ _ e4 hv]
  refine ⟨?_, ?_⟩
  · unfold fitAll
    rw [hst, Outcome.ok_bind]
    simp only [if_true, hrs, i1, i2]
    rw [upgrade_nat add rs v rv rv' ev av, Outcome.ok_bind]
    by_cases hbv : b = v
    · subst hbv
      rw [eb] at ev; cases ev
      rw [ab] at av; cases av
      rw [if_neg (by simp), List.set_set]
    · rw [if_pos (by omega)]
      rw [upgrade_nat add (rs.set v rv') b rb rb' (by rw [List.getElem?_set_ne (by omega)]; exact eb) ab]
  · intro k r hk
    by_cases h1 : k = b
    · subst h1; rw [if_pos rfl, List.getElem?_set_self (by rw [List.length_set]; exact hbl)]
    · rw [if_neg h1, List.getElem?_set_ne (by omega)]
      by_cases h2 : k = v
      · subst h2; rw [if_pos rfl, List.getElem?_set_self hvl]
      · rw [if_neg h2, List.getElem?_set_ne (by omega)]; exact hk

/-- Finding: if no fit converged, the result of the last fit gets matrices, whatever its value. -/
theorem fitAll_keep_none_converged (add : FitResult → Outcome FitResult) (fit : ℕ → ℕ → Outcome FitResult) (seeds : List ℕ)
    (rs : List FitResult) (h : Fits fit seeds rs) (hnone : ∀ r ∈ rs, r.converged = false) (b : ℕ) (hb : FirstMin rs (fun _ => True) b)
    (rb rl rb' rl' : FitResult) (eb : rs[b]? = some rb) (el : rs[rs.length - 1]? = some rl) (ab : add rb = .ok rb') (al : add rl = .ok rl')
    (hne : b ≠ rs.length - 1) :
    fitAll add fit true seeds = .ok ((rs.set (rs.length - 1) rl').set b rb') ∧
      ((rs.set (rs.length - 1) rl').set b rb')[rs.length - 1]? = some rl' := by
  obtain ⟨st, hst, hrs⟩ := fits_run fit seeds rs h
  obtain ⟨_, hinv⟩ := runFits_ok fit seeds st hst
  have hll := (List.getElem?_eq_some_iff.1 el).1
  have i1 : st.iBest = b := by
    rcases hinv.hbest with ⟨e, _, _⟩ | ⟨i, r, e1, e2, e3, e4⟩
    · rw [hrs] at e; rw [e] at eb; simp at eb
    · rw [hrs] at e4
      rw [e1, firstMin_unique _ _ _ _ e4 hb]
  have i2 : st.iBestValid = -1 := by
    rcases hinv.hvalid with ⟨_, _, e⟩ | ⟨i, r, e1, e2, e3, e4⟩
    · exact e
    · rw [hrs] at e4
      obtain ⟨r, r1, r2, _⟩ := e4
      rw [hnone r (List.mem_of_getElem? r1)] at r2; cases r2
  refine ⟨?_, ?_⟩
  · unfold fitAll
    rw [hst, Outcome.ok_bind]
    simp only [if_true, hrs, i1, i2]
    rw [upgrade_last add rs rl rl' el al, Outcome.ok_bind, if_pos (by omega)]
    rw [upgrade_nat add _ b rb rb' (by rw [List.getElem?_set_ne (by omega)]; exact eb) ab]
  · rw [List.getElem?_set_ne (by omega), List.getElem?_set_self hll]

/-- Finding: no attempt at all with `keepMatricesOnlyOfBest` ends in an `IndexError`. -/
theorem fitAll_keep_no_attempt (add : FitResult → Outcome FitResult) (fit : ℕ → ℕ → Outcome FitResult) :
    fitAll add fit true [] = .terminate := rfl

/-- a likelihood that could not be set up: no results. -/
theorem pwaFits_no_likelihood (inv : ℕ → (ℕ → ℕ → ℝ) → (ℕ → ℕ → ℝ)) (eig : ℕ → (ℕ → ℕ → ℝ) → ℕ → (ℕ → ℝ) × ℝ)
    (fit : Lik → Options → ℕ → ℕ → Outcome FitResult) (o : Options) (keep : Bool) (seeds : List ℕ) :
    pwaFits inv eig none fit o keep seeds = .ok [] := rfl

end Rpwa.Attempts
