import Verif.Props.FitCovAmp
import Verif.Spec.FitCov
/-! # C100: covariance matrices of a resonance fit: a refused mass bin -/
namespace Rpwa.FitCov

theorem massLoop_spec {A : Type} (prepare : ℕ → Option A) : ∀ (t a : ℕ) (st : List (Option A)), a + t ≤ st.length →
    ((massLoop prepare (List.range' a t) st).2 = true → (∀ m, a ≤ m → m < a + t → ∃ W, prepare m = some W ∧
        (massLoop prepare (List.range' a t) st).1[m]? = some (some W)) ∧
      (∀ m, ¬ (a ≤ m ∧ m < a + t) → (massLoop prepare (List.range' a t) st).1[m]? = st[m]?)) ∧
    ((massLoop prepare (List.range' a t) st).2 = false → ∃ m0, a ≤ m0 ∧ m0 < a + t ∧ prepare m0 = none ∧
      (∀ m, a ≤ m → m < m0 → ∃ W, prepare m = some W ∧ (massLoop prepare (List.range' a t) st).1[m]? = some (some W)) ∧
      (∀ m, ¬ (a ≤ m ∧ m < m0) → (massLoop prepare (List.range' a t) st).1[m]? = st[m]?)) ∧
    (massLoop prepare (List.range' a t) st).1.length = st.length := by
  intro t
  induction t with
  | zero =>
    intro a st _
    refine ⟨fun _ => ⟨fun m h1 h2 => by omega, fun m _ => rfl⟩, fun h => ?_, rfl⟩
    cases h
  | succ t ih =>
    intro a st hlen
    rw [List.range'_succ]
    cases hp : prepare a with
    | none =>
      have he : massLoop prepare (a :: List.range' (a + 1) t) st = (st, false) := by
        unfold massLoop
        rw [hp]
      rw [he]
      refine ⟨fun h => (by cases h), fun _ => ⟨a, Nat.le_refl _, by omega, hp, fun m h1 h2 => by omega, fun _ _ => rfl⟩, rfl⟩
    | some W =>
      have he : massLoop prepare (a :: List.range' (a + 1) t) st = massLoop prepare (List.range' (a + 1) t) (st.set a (some W)) := by
        conv_lhs => unfold massLoop
        rw [hp]
      rw [he]
      obtain ⟨h1, h2, h3⟩ := ih (a + 1) (st.set a (some W)) (by rw [List.length_set]; omega)
      have hset : (st.set a (some W))[a]? = some (some W) := by
        rw [List.getElem?_set_self (by omega)]
      have hset' : ∀ m, m ≠ a → (st.set a (some W))[m]? = st[m]? := fun m hm => List.getElem?_set_ne (fun h => hm h.symm)
      refine ⟨?_, ?_, by rw [h3, List.length_set]⟩
      · intro hf
        obtain ⟨h4, h5⟩ := h1 hf
        constructor
        · intro m hm hm'
          by_cases hma : m = a
          · subst hma
            exact ⟨W, hp, by rw [h5 m (by omega), hset]⟩
          · exact h4 m (by omega) (by omega)
        · intro m hm
          rw [h5 m (by omega), hset' m (by omega)]
      · intro hf
        obtain ⟨m0, h4, h5, h6, h7, h8⟩ := h2 hf
        refine ⟨m0, by omega, by omega, h6, ?_, ?_⟩
        · intro m hm hm'
          by_cases hma : m = a
          · subst hma
            exact ⟨W, hp, by rw [h8 m (by omega), hset]⟩
          · exact h7 m (by omega) (by omega)
        · intro m hm
          rw [h8 m (by omega), hset' m (by omega)]

theorem massRange_lt (maxMass : ℕ) (limits : ℕ → ℕ × ℕ) (n : ℕ) (h : ∀ w < n, (limits w).2 < maxMass) (h0 : 0 < n) :
    (massRange maxMass n limits).2 < maxMass := by
  have key : ∀ k, k ≤ n → (massRange maxMass k limits).2 < maxMass ∨ k = 0 := by
    intro k
    induction k with
    | zero => intro _; exact Or.inr rfl
    | succ k ih =>
      intro hk
      left
      have hr : (massRange maxMass (k + 1) limits).2 = max (massRange maxMass k limits).2 (limits k).2 := by
        unfold massRange
        rw [List.range_succ, List.foldl_append]
        rfl
      rw [hr]
      have h1 := h k (by omega)
      rcases ih (by omega) with h2 | rfl
      · exact max_lt h2 h1
      · exact max_lt (by show 0 < maxMass; omega) h1
  rcases key n (Nat.le_refl _) with h1 | h1
  · exact h1
  · omega

theorem dropUnused_get {A : Type} (r : ℕ × ℕ) (st : List (Option A)) (m : ℕ) :
    (dropUnused r st)[m]? = (st[m]?).map fun v => if r.1 ≤ m ∧ m ≤ r.2 then v else none := by
  unfold dropUnused
  rw [List.getElem?_mapIdx]

theorem massRange_fst_le (M : ℕ) (limits : ℕ → ℕ × ℕ) (k : ℕ) : (massRange M k limits).1 ≤ M := by
  induction k with
  | zero => exact Nat.le_refl _
  | succ k ih =>
    have hr : (massRange M (k + 1) limits).1 = min (massRange M k limits).1 (limits k).1 := by
      unfold massRange
      rw [List.range_succ, List.foldl_append]
      rfl
    rw [hr]
    exact le_trans (min_le_left _ _) ih

/-- **C100** (one bin, all mass bins, what is done with the matrices that were read). -/
theorem runBin_spec {A : Type} (b : BinIn A) (hlim : ∀ w < b.n, (b.limits w).2 < b.read.length) (hn : 0 < b.n) :
    ((runBin b.n b.limits b.prepare b.read).2 = true → Finished b (runBin b.n b.limits b.prepare b.read).1) ∧
    ((runBin b.n b.limits b.prepare b.read).2 = false → Aborted b (runBin b.n b.limits b.prepare b.read).1) := by
  obtain ⟨n, limits, prepare, st⟩ := b
  dsimp only at hlim hn ⊢
  have hdec : ∀ m, (fun w => decide ((limits w).1 ≤ m) && decide (m ≤ (limits w).2)) = fun w => decide ((limits w).1 ≤ m ∧ m ≤ (limits w).2) := by
    intro m
    funext w
    rw [Bool.decide_and]
  have hb : (massRange st.length n limits).2 < st.length := massRange_lt st.length limits n hlim hn
  have ha := massRange_fst_le st.length limits n
  have hused : ∀ m, m < st.length → (((massRange st.length n limits).1 ≤ m ∧ m ≤ (massRange st.length n limits).2) ↔ Used n limits m) :=
    fun m hm => massRange_spec st.length limits n m hm
  have hout : ∀ m, Used n limits m → m < st.length := by
    rintro m ⟨_, w, hw, h⟩
    exact lt_of_le_of_lt h (hlim w hw)
  generalize hr : massRange st.length n limits = r at hb ha hused
  obtain ⟨a, b⟩ := r
  dsimp only at hb ha hused
  obtain ⟨h1, h2, h3⟩ := massLoop_spec (fun m => prepare m fun w => decide ((limits w).1 ≤ m) && decide (m ≤ (limits w).2)) (b + 1 - a) a st
    (by omega)
  have he : runBin n limits prepare st =
      if (massLoop (fun m => prepare m fun w => decide ((limits w).1 ≤ m) && decide (m ≤ (limits w).2)) (List.range' a (b + 1 - a)) st).2
      then (dropUnused (a, b) (massLoop (fun m => prepare m fun w => decide ((limits w).1 ≤ m) && decide (m ≤ (limits w).2))
        (List.range' a (b + 1 - a)) st).1, true)
      else massLoop (fun m => prepare m fun w => decide ((limits w).1 ≤ m) && decide (m ≤ (limits w).2)) (List.range' a (b + 1 - a)) st := by
    unfold runBin
    rw [hr]
  rw [he]
  generalize massLoop (fun m => prepare m fun w => decide ((limits w).1 ≤ m) && decide (m ≤ (limits w).2)) (List.range' a (b + 1 - a)) st = p
    at h1 h2 h3
  obtain ⟨p1, p2⟩ := p
  dsimp only at h1 h2 h3
  cases p2 with
  | true =>
    rw [if_pos rfl]
    refine ⟨fun _ => ?_, fun h => by cases h⟩
    obtain ⟨h4, h5⟩ := h1 rfl
    refine ⟨?_, ?_⟩
    · show (dropUnused (a, b) p1).length = st.length
      unfold dropUnused
      rw [List.length_mapIdx, h3]
    · intro m hm
      dsimp only at hm
      constructor
      · intro hu
        have hu' := (hused m hm).2 hu
        obtain ⟨W, h6, h7⟩ := h4 m hu'.1 (by omega)
        rw [hdec] at h6
        refine ⟨W, h6, ?_⟩
        show (dropUnused (a, b) p1)[m]? = _
        rw [dropUnused_get, h7]
        show some (if a ≤ m ∧ m ≤ b then some W else none) = _
        rw [if_pos hu']
      · intro hu
        have hu' : ¬ (a ≤ m ∧ m ≤ b) := fun h => hu ((hused m hm).1 h)
        show (dropUnused (a, b) p1)[m]? = _
        rw [dropUnused_get, List.getElem?_eq_getElem (show m < p1.length by rw [h3]; exact hm)]
        show some (if a ≤ m ∧ m ≤ b then _ else none) = _
        rw [if_neg hu']
  | false =>
    rw [if_neg Bool.false_ne_true]
    refine ⟨fun h => (by cases h), fun _ => ?_⟩
    obtain ⟨m0, h4, h5, h6, h7, h8⟩ := h2 rfl
    rw [hdec] at h6
    refine ⟨m0, (hused m0 (by omega)).1 ⟨h4, by omega⟩, h6, ?_, ?_⟩
    · intro m hm hu
      dsimp only at hu
      have hu' := (hused m (by omega)).2 hu
      obtain ⟨W, h9, h10⟩ := h7 m hu'.1 hm
      rw [hdec] at h9
      exact ⟨W, h9, h10⟩
    · intro m hm
      apply h8
      intro hm'
      exact hm ⟨hm'.2, (hused m (by omega)).1 ⟨hm'.1, by omega⟩⟩

/-- **C100** (all bins): a refused mass bin ends the preparation: the matrices of the mass bins and bins after it are those that were read. -/
theorem runBins_spec {A : Type} (bs : List (BinIn A)) (hlim : ∀ b ∈ bs, ∀ w < b.n, (b.limits w).2 < b.read.length)
    (hn : ∀ b ∈ bs, 0 < b.n) :
    ((runBins bs).2 = true → List.Forall₂ Finished bs (runBins bs).1) ∧
    ((runBins bs).2 = false → ∃ done b rest out X, bs = done ++ b :: rest ∧ (runBins bs).1 = out ++ X :: rest.map (·.read) ∧
      List.Forall₂ Finished done out ∧ Aborted b X) := by
  induction bs with
  | nil => exact ⟨fun _ => List.Forall₂.nil, fun h => by cases h⟩
  | cons b bs ih =>
    obtain ⟨i1, i2⟩ := ih (fun b' h => hlim b' (List.mem_cons_of_mem _ h)) (fun b' h => hn b' (List.mem_cons_of_mem _ h))
    obtain ⟨h1, h2⟩ := runBin_spec b (hlim b List.mem_cons_self) (hn b List.mem_cons_self)
    have he : runBins (b :: bs) = if (runBin b.n b.limits b.prepare b.read).2 then
        ((runBin b.n b.limits b.prepare b.read).1 :: (runBins bs).1, (runBins bs).2)
        else ((runBin b.n b.limits b.prepare b.read).1 :: bs.map (·.read), false) := rfl
    rw [he]
    generalize runBin b.n b.limits b.prepare b.read = p at h1 h2
    obtain ⟨p1, p2⟩ := p
    dsimp only at h1 h2
    cases p2 with
    | true =>
      rw [if_pos rfl]
      refine ⟨fun h => List.Forall₂.cons (h1 rfl) (i1 h), fun h => ?_⟩
      obtain ⟨done, b', rest, out, X, e1, e2, e3, e4⟩ := i2 h
      refine ⟨b :: done, b', rest, p1 :: out, X, by rw [e1]; rfl, ?_, List.Forall₂.cons (h1 rfl) e3, e4⟩
      show p1 :: (runBins bs).1 = _
      rw [e2]
      rfl
    | false =>
      rw [if_neg Bool.false_ne_true]
      exact ⟨fun h => (by cases h), fun _ => ⟨[], b, bs, [], p1, rfl, rfl, List.Forall₂.nil, h2 rfl⟩⟩

/-- three mass bins, all of them used, the second one is refused: the third one keeps what was read. -/
def exRun : BinIn ℕ := ⟨1, fun _ => (0, 2), fun m _ => if m = 1 then none else some (100 + m), [some 0, some 1, some 2]⟩

example : runBins [exRun, exRun] = ([[some 100, some 1, some 2], [some 0, some 1, some 2]], false) := by decide

/-- the first mass bin is not used and is removed. -/
def exRun' : BinIn ℕ := ⟨1, fun _ => (1, 2), fun m _ => some (100 + m), [some 0, some 1, some 2]⟩

example : runBins [exRun', exRun] = ([[none, some 101, some 102], [some 100, some 1, some 2]], false) ∧
    (∀ w < exRun'.n, (exRun'.limits w).2 < exRun'.read.length) ∧ 0 < exRun'.n := by
  refine ⟨by decide, ?_, by decide⟩
  decide

end Rpwa.FitCov
