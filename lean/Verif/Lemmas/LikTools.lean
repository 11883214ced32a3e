import Verif.Lemmas.Likelihood
import Verif.Spec.LikTools
import Verif.Lemmas.Outcome
/-! Lemmas for C26-C29. -/
namespace Rpwa.Lik

open Finset Complex

variable {L : LikData}

theorem complex_ext_part {x y : ℂ} (h : ∀ b, part x b = part y b) : x = y := Complex.ext (h true) (h false)

/-- `copyFromParArray` reads the first `nmbPars` elements. -/
theorem copyFrom_congr {d : ParData} {comp : List Comp} (hl : Layout L d comp) (par par' : ℕ → ℝ) (h : ∀ i < d.nmbPars, par i = par' i) :
    copyFromParArray L.rank L.nW par = copyFromParArray L.rank L.nW par' := by
  rw [hl.nmb] at h
  refine Prod.ext (funext fun s => complex_ext_part fun b => ?_) ?_
  · by_cases hf : Free L.rank L.nW (s, b)
    · obtain ⟨k, hk⟩ := List.getElem?_of_mem ((hl.free _).2 hf)
      rw [hl.fromPar _ k _ hk, hl.fromPar _ k _ hk]
      exact h k (by have := (List.getElem?_eq_some_iff.1 hk).1; omega)
    · rw [hl.fromZero _ s b hf, hl.fromZero _ s b hf]
  · rw [hl.fromFlat, hl.fromFlat]; exact h _ (by omega)

theorem gradient_congr {d : ParData} {comp : List Comp} (hl : Layout L d comp) (par par' out out' : ℕ → ℝ) (h : ∀ i < d.nmbPars, par i = par' i)
    (k : ℕ) (hk : k < d.nmbPars) : L.gradient d par out k = L.gradient d par' out' k := by
  unfold LikData.gradient
  rw [copyFrom_congr hl par par' h]
  rw [hl.nmb] at hk
  by_cases hkf : k = comp.length
  · subst hkf; rw [hl.toFlat, hl.toFlat]
  · have hk2 : comp[k]? = some comp[k] := List.getElem?_eq_getElem (by omega)
    rw [hl.toPar _ _ _ k _ hk2, hl.toPar _ _ _ k _ hk2]

/-- amplitudes that obey the rank condition survive the parameter array. -/
theorem layout_copyFrom_copyTo {d : ParData} {comp : List Comp} (hl : Layout L d comp) (a : Amps) (ha : RankCondition L.rank L.nW a) (f : ℝ)
    (out : ℕ → ℝ) : copyFromParArray L.rank L.nW (copyToParArray L.rank L.nW d a f out) = (a, f) := by
  refine Prod.ext (funext fun s => complex_ext_part fun b => ?_) ?_
  · by_cases hf : Free L.rank L.nW (s, b)
    · obtain ⟨k, hk⟩ := List.getElem?_of_mem ((hl.free _).2 hf)
      rw [hl.fromPar _ k _ hk, hl.toPar _ _ _ k _ hk]
    · rw [hl.fromZero _ s b hf, ha s b hf]
  · rw [hl.fromFlat, hl.toFlat]

theorem copyFrom_rankCondition {d : ParData} {comp : List Comp} (hl : Layout L d comp) (par : ℕ → ℝ) :
    RankCondition L.rank L.nW (copyFromParArray L.rank L.nW par).1 := fun s b h => hl.fromZero par s b h

/-- the layout does not depend on data, prior or normalisation. -/
theorem layout_transfer {d : ParData} {comp : List Comp} (hl : Layout L d comp) (L' : LikData) (hr : L'.rank = L.rank) (hw : L'.nW = L.nW) :
    Layout L' d comp := by
  obtain ⟨a1, a2, a3, a4, a5, a6, a7, a8, a9, a10, a11, a12⟩ := hl
  constructor
  · exact a1
  · rw [hr, hw]; exact a2
  · exact a3
  · exact a4
  · rw [hr, hw]; exact a5
  · rw [hr, hw]; exact a6
  · rw [hr, hw]; exact a7
  · rw [hr, hw]; exact a8
  · rw [hr, hw]; exact a9
  · rw [hr, hw]; exact a10
  · exact a11
  · exact a12

/-! ### derivative cache -/

/-- the caches belong together for the current object. -/
def CacheOk (d : ParData) (s : DerivState) : Prop :=
  (∀ i < d.nmbPars, s.parCache i = 0) ∨ ∀ k < d.nmbPars, ∀ out, s.derivCache k = s.lik.gradient d s.parCache out k

theorem fdf_snd (L : LikData) (d : ParData) (par out : ℕ → ℝ) (h : L.fdf d par out = (L.doEval par, L.gradient d par out)) :
    (L.fdf d par out).2 = L.gradient d par out := by rw [h]

theorem cacheOk_fill {d : ParData} {comp : List Comp} (s : DerivState) (hl : Layout s.lik d comp) (par : ℕ → ℝ) :
    CacheOk d ⟨s.lik, DerivState.storePar d par s.parCache, s.lik.gradient d par s.derivCache⟩ := by
  right
  intro k hk out
  refine gradient_congr hl _ _ _ _ ?_ k hk
  intro i hi
  simp [DerivState.storePar, hi]

/-! ### sign convention -/

/-- the eigenblock is flipped. -/
def Flip (a : Amps) (r e : ℕ) : Prop := (a (r, e, r)).re < 0 ∧ (a (r, e, r)).im = 0

open Classical in
/-- result of the loop. -/
noncomputable def flipped (nW : ℕ → ℕ) (l : List (ℕ × ℕ)) (a : Amps) : Amps := fun s =>
  if (s.1, s.2.1) ∈ l ∧ s.2.2 < nW s.2.1 ∧ Flip a s.1 s.2.1 then -a s else a s

theorem correct_fold (nW : ℕ → ℕ) (l : List (ℕ × ℕ)) (hn : l.Nodup) (hr : ∀ p ∈ l, p.1 < max (nW 0) (nW 1)) (a : Amps) :
    l.foldlM (correctStep nW) a = .ok (flipped nW l a) := by
  induction l using List.reverseRecOn with
  | nil => exact congrArg Outcome.ok (by funext s; simp [flipped])
  | append_singleton l p ih =>
    have hl : l.Nodup := (List.nodup_append.1 hn).1
    have hp : p ∉ l := by
      intro hc
      exact (List.nodup_append.1 hn).2.2 p hc p (by simp) rfl
    rw [List.foldlM_append, ih hl (fun q hq => hr q (by simp [hq]))]
    simp only [Outcome.ok_bind, List.foldlM_cons, List.foldlM_nil]
    unfold correctStep
    rw [if_pos (hr p (by simp))]
    have hanchor : flipped nW l a (p.1, p.2, p.1) = a (p.1, p.2, p.1) := by
      unfold flipped; rw [if_neg]; rintro ⟨h, _⟩; exact hp h
    rw [hanchor]
    by_cases hf : Flip a p.1 p.2
    · have hf' : (a (p.1, p.2, p.1)).re < 0 ∧ (a (p.1, p.2, p.1)).im = 0 := hf
      rw [if_pos hf']
      refine congrArg Outcome.ok ?_
      funext s
      unfold flipped
      by_cases hs : (s.1, s.2.1) = p
      · have h1 : s.1 = p.1 := by rw [← hs]
        have h2 : s.2.1 = p.2 := by rw [← hs]
        have hnl : (p.1, p.2) ∉ l := hp
        rw [h1, h2]
        by_cases hw : s.2.2 < nW p.2
        · simp [hw, hf, hnl]
        · simp [hw]
      · have hs' : ¬ (s.1 = p.1 ∧ s.2.1 = p.2 ∧ s.2.2 < nW p.2) := fun h => hs (Prod.ext h.1 h.2.1)
        rw [if_neg hs']
        have hm : (s.1, s.2.1) ∈ l ++ [p] ↔ (s.1, s.2.1) ∈ l := by rw [List.mem_append, List.mem_singleton]; exact or_iff_left hs
        by_cases hc : (s.1, s.2.1) ∈ l ∧ s.2.2 < nW s.2.1 ∧ Flip a s.1 s.2.1
        · rw [if_pos hc, if_pos ⟨hm.2 hc.1, hc.2⟩]
        · rw [if_neg hc, if_neg (fun h => hc ⟨hm.1 h.1, h.2⟩)]
    · have hf' : ¬ ((a (p.1, p.2, p.1)).re < 0 ∧ (a (p.1, p.2, p.1)).im = 0) := hf
      rw [if_neg hf']
      refine congrArg Outcome.ok ?_
      funext s
      unfold flipped
      by_cases hs : (s.1, s.2.1) = p
      · have h1 : s.1 = p.1 := by rw [← hs]
        have h2 : s.2.1 = p.2 := by rw [← hs]
        rw [h1, h2]; simp [hf]
      · have hm : (s.1, s.2.1) ∈ l ++ [p] ↔ (s.1, s.2.1) ∈ l := by rw [List.mem_append, List.mem_singleton]; exact or_iff_left hs
        by_cases hc : (s.1, s.2.1) ∈ l ∧ s.2.2 < nW s.2.1 ∧ Flip a s.1 s.2.1
        · rw [if_pos hc, if_pos ⟨hm.2 hc.1, hc.2⟩]
        · rw [if_neg hc, if_neg (fun h => hc ⟨hm.1 h.1, h.2⟩)]

/-- the blocks of the loop. -/
def blocks (rank : ℕ) : List (ℕ × ℕ) := (List.range rank).flatMap fun r => (List.range 2).map fun e => (r, e)

theorem mem_blocks (rank : ℕ) (p : ℕ × ℕ) : p ∈ blocks rank ↔ p.1 < rank ∧ p.2 < 2 := by
  unfold blocks
  simp only [List.mem_flatMap, List.mem_map, List.mem_range]
  constructor
  · rintro ⟨r, hr, e, he, rfl⟩; exact ⟨hr, he⟩
  · rintro ⟨h1, h2⟩; exact ⟨p.1, h1, p.2, h2, rfl⟩

theorem nodup_blocks (rank : ℕ) : (blocks rank).Nodup := by
  unfold blocks
  rw [List.nodup_flatMap]
  refine ⟨fun r _ => (List.nodup_range).map (fun a b h => by simpa using h), ?_⟩
  refine List.nodup_range.imp ?_
  intro a b hab x hx hy
  simp only [List.mem_map] at hx hy
  obtain ⟨_, _, rfl⟩ := hx
  obtain ⟨_, _, h⟩ := hy
  exact hab (by simpa using (Prod.ext_iff.1 h).1.symm)

/-- signs per block do not change the likelihood. -/
theorem eval_signs (L : LikData) (a b : Amps) (f g : ℝ) (eps : ℕ → ℕ → ℝ) (he : ∀ r e, eps r e * eps r e = 1)
    (hb : ∀ r e w, r < L.rank → e < 2 → w < L.nW e → b (r, e, w) = (eps r e : ℂ) * a (r, e, w)) (hg : g * g = f * f) :
    L.eval b g = L.eval a f := by
  have hns : ∀ r e (z : ℂ), normSq ((eps r e : ℂ) * z) = normSq z := by
    intro r e z; rw [normSq_mul, normSq_ofReal, he, one_mul]
  have hnorm : ∀ r e (z : ℂ), ‖(eps r e : ℂ) * z‖ = ‖z‖ := by
    intro r e z
    rw [norm_mul, Complex.norm_real]
    have : |eps r e| = 1 := by
      have h1 := abs_mul_abs_self (eps r e)
      rw [he] at h1
      nlinarith [abs_nonneg (eps r e)]
    rw [Real.norm_eq_abs, this, one_mul]
  have hsig : ∀ ev, L.sigma b g ev = L.sigma a f ev := by
    intro ev
    unfold LikData.sigma
    rw [hg]
    congr 1
    refine sum_congr rfl fun r hr => sum_congr rfl fun e he' => ?_
    have : L.ampSum b ev r e = (eps r e : ℂ) * L.ampSum a ev r e := by
      unfold LikData.ampSum
      rw [mul_sum]
      refine sum_congr rfl fun w hw => ?_
      rw [hb r e w (mem_range.1 hr) (mem_range.1 he') (mem_range.1 hw)]; ring
    rw [this, hns]
  have hnf : L.normFactor b g = L.normFactor a f := by
    unfold LikData.normFactor
    rw [hg]
    congr 1
    refine sum_congr rfl fun r hr => sum_congr rfl fun e he' => sum_congr rfl fun i hi => sum_congr rfl fun j hj => ?_
    rw [hb r e i (mem_range.1 hr) (mem_range.1 he') (mem_range.1 hi), hb r e j (mem_range.1 hr) (mem_range.1 he') (mem_range.1 hj)]
    congr 1
    rw [map_mul, conj_ofReal]
    have h1 : ((eps r e : ℂ)) * (eps r e : ℂ) = 1 := by rw [← ofReal_mul, he, ofReal_one]
    calc _ = (((eps r e : ℂ)) * (eps r e : ℂ)) * (a (r, e, i) * (starRingEnd ℂ) (a (r, e, j)) * L.accMatrix e i j) := by ring
      _ = _ := by rw [h1, one_mul]
  have hpr : L.priorValue b = L.priorValue a := by
    unfold LikData.priorValue
    split
    · rfl
    · refine sum_congr rfl fun r hr => sum_congr rfl fun e he' => sum_congr rfl fun w hw => ?_
      rw [hb r e w (mem_range.1 hr) (mem_range.1 he') (mem_range.1 hw), hnorm]
  unfold LikData.eval
  rw [hnf, hpr]
  simp only [hsig]

end Rpwa.Lik
