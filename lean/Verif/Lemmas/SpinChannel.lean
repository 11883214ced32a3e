import Verif.Spec.SpinChannel
import Mathlib.Tactic.Linarith
/-!
# Enumeration of the contractions of a channel
-/
namespace Rpwa.SpinTensor
open Fraction CgBox Spec

theorem mem_upTo {lo hi x : ℤ} : x ∈ upTo lo hi ↔ lo ≤ x ∧ x ≤ hi := by
  unfold upTo
  simp only [List.mem_map, List.mem_range]
  constructor
  · rintro ⟨k, hk, rfl⟩; omega
  · rintro ⟨h1, h2⟩; exact ⟨(x - lo).toNat, by omega, by omega⟩

theorem upTo_nodup (lo hi : ℤ) : (upTo lo hi).Nodup := by
  unfold upTo
  refine List.Nodup.map (fun a b h => ?_) List.nodup_range
  have h' : lo + (a : ℤ) = lo + b := h
  omega

variable {c : Channel}

theorem lMin_le (c : Channel) : c.lMin ≤ c.lMax ∧ ∀ s, c.sMin ≤ s → s ≤ c.sMax → c.lMin ≤ |(c.J : ℤ) - s| := by
  unfold Channel.lMin
  have key : ∀ (l : List ℤ) (m : ℤ), l.foldl (fun m s => if |(c.J : ℤ) - s| < m then |(c.J : ℤ) - s| else m) m ≤ m ∧
      ∀ s ∈ l, l.foldl (fun m s => if |(c.J : ℤ) - s| < m then |(c.J : ℤ) - s| else m) m ≤ |(c.J : ℤ) - s| := by
    intro l
    induction l with
    | nil => intro m; simp
    | cons a l ih =>
      intro m
      rw [List.foldl_cons]
      obtain ⟨h1, h2⟩ := ih (if |(c.J : ℤ) - a| < m then |(c.J : ℤ) - a| else m)
      have h3 : (if |(c.J : ℤ) - a| < m then |(c.J : ℤ) - a| else m) ≤ m := by split_ifs <;> omega
      have h4 : (if |(c.J : ℤ) - a| < m then |(c.J : ℤ) - a| else m) ≤ |(c.J : ℤ) - a| := by split_ifs <;> omega
      refine ⟨h1.trans h3, fun s hs => ?_⟩
      rcases List.mem_cons.mp hs with rfl | hs
      · exact h1.trans h4
      · exact h2 s hs
  obtain ⟨h1, h2⟩ := key (upTo c.sMin c.sMax) c.lMax
  exact ⟨h1, fun s hs hs' => h2 s (mem_upTo.mpr ⟨hs, hs'⟩)⟩

theorem lStart_cases (c : Channel) : c.lStart = 0 ∨ c.lStart = 1 := by unfold Channel.lStart; split_ifs <;> simp

theorem mem_ls {L : ℤ} : L ∈ c.ls ↔ c.lMin ≤ L ∧ 0 ≤ L ∧ L ≤ c.lMax ∧ L % 2 = c.lStart := by
  unfold Channel.ls Channel.lSteps
  simp only [List.mem_filter, List.mem_map, List.mem_range, decide_eq_true_eq]
  have hmax : 0 ≤ c.lMax := by unfold Channel.lMax Channel.sMax; positivity
  rcases lStart_cases c with h | h <;> rw [h]
  · constructor
    · rintro ⟨⟨k, hk, rfl⟩, h2⟩; omega
    · rintro ⟨h1, h2, h3, h4⟩; exact ⟨⟨(L / 2).toNat, by omega, by omega⟩, h1⟩
  · constructor
    · rintro ⟨⟨k, hk, rfl⟩, h2⟩; omega
    · rintro ⟨h1, h2, h3, h4⟩; exact ⟨⟨(L / 2).toNat, by omega, by omega⟩, h1⟩

theorem ls_nodup (c : Channel) : c.ls.Nodup := by
  unfold Channel.ls
  refine List.Nodup.filter _ (List.Nodup.map (fun a b h => ?_) List.nodup_range)
  have h' : c.lStart + 2 * (a : ℤ) = c.lStart + 2 * b := h
  omega

theorem even_iff {L : ℤ} (h : L % 2 = c.lStart) : c.even = true ↔ ((c.S1 : ℤ) + c.S2 + L + c.J) % 2 = 0 := by
  unfold Channel.even
  rw [decide_eq_true_eq]
  have : ∀ x : ℤ, x.tmod 2 = 0 ↔ x % 2 = 0 := fun x =>
    ⟨fun h => Int.emod_eq_zero_of_dvd (Int.dvd_of_tmod_eq_zero h), fun h => Int.tmod_eq_zero_of_dvd (Int.dvd_of_emod_eq_zero h)⟩
  rw [this]
  omega

theorem mem_spins {L S : ℤ} (hL : 0 ≤ L) : S ∈ c.spins L ↔ CgBox.Spec.Triangle S c.S1 c.S2 ∧ CgBox.Spec.Triangle c.J L S := by
  unfold Channel.spins Channel.sMin Channel.sMax CgBox.Spec.Triangle
  rw [mem_upTo]
  constructor
  · rintro ⟨h1, h2⟩
    have := le_max_left |(c.J : ℤ) - L| |(c.S1 : ℤ) - c.S2|
    have := le_max_right |(c.J : ℤ) - L| |(c.S1 : ℤ) - c.S2|
    have := neg_abs_le ((c.J : ℤ) - L); have := le_abs_self ((c.J : ℤ) - L)
    have := neg_abs_le ((c.S1 : ℤ) - c.S2); have := le_abs_self ((c.S1 : ℤ) - c.S2)
    have := min_le_left ((c.J : ℤ) + L) (c.S1 + c.S2)
    have := min_le_right ((c.J : ℤ) + L) (c.S1 + c.S2)
    refine ⟨⟨by omega, by omega, by omega⟩, by omega, by omega, by omega⟩
  · rintro ⟨⟨h1, h2, h3⟩, h4, h5, h6⟩
    refine ⟨max_le (abs_le.mpr ⟨by omega, by omega⟩) (abs_le.mpr ⟨by omega, by omega⟩), le_min (by omega) (by omega)⟩

theorem included_even {L psiInt psiChi chiPhi psiPhi : ℤ} (hE : c.even = true) (h : ¬ c.excluded L psiInt psiChi chiPhi psiPhi = true) :
    psiInt + psiChi + chiPhi + psiPhi = ((c.S1 : ℤ) + c.S2 + L + c.J).tdiv 2 ∧ 2 * psiInt + psiChi + psiPhi = (c.S1 : ℤ) + c.S2 ∧
    psiChi + chiPhi = L ∧ chiPhi + psiPhi = c.J := by
  unfold Channel.excluded Channel.indexContractions at h
  simp only [hE, if_true] at h
  refine ⟨?_, ?_, ?_, ?_⟩ <;> (by_contra hc; apply h; split_ifs <;> first | rfl | contradiction)

theorem included_odd {L psiInt psiChi chiPhi psiPhi : ℤ} (hE : c.even = false) (h : ¬ c.excluded L psiInt psiChi chiPhi psiPhi = true) :
    psiInt + psiChi + chiPhi + psiPhi = ((c.S1 : ℤ) + c.S2 + L + c.J - 3).tdiv 2 ∧ L - psiChi - chiPhi ≤ 1 ∧ (c.J : ℤ) - psiPhi - chiPhi ≤ 1 := by
  unfold Channel.excluded Channel.indexContractions at h
  simp only [hE, Bool.false_eq_true, if_false] at h
  refine ⟨?_, ?_, ?_⟩ <;> (by_contra hc; apply h; split_ifs <;> first | rfl | omega)

theorem tdiv2 {x : ℤ} (hx : 0 ≤ x) : x.tdiv 2 = x / 2 := Int.tdiv_eq_ediv_of_nonneg hx

/-- a contraction of the inner loops, with the ranks that are left for the pairs with `chi` and `phi` -/
theorem mem_inner {L S i cp pc pp r1 r2 : ℤ} {x : Contraction}
    (h : x ∈ (upTo 0 r1).flatMap fun co => (upTo 0 (r1 - co)).flatMap fun po =>
      if pp - po < 0 ∨ pc - co < 0 ∨ (pp - po) + (pc - co) > r2 then []
      else (upTo 0 (min S c.J)).map fun delta => (⟨L, S, delta, i, cp, pc, pp, co, po⟩ : Contraction)) :
    ∃ co po δ : ℤ, x = ⟨L, S, δ, i, cp, pc, pp, co, po⟩ ∧ 0 ≤ co ∧ 0 ≤ po ∧ co + po ≤ r1 ∧ po ≤ pp ∧ co ≤ pc ∧ (pp - po) + (pc - co) ≤ r2 ∧
      0 ≤ δ ∧ δ ≤ S ∧ δ ≤ c.J := by
  simp only [List.mem_flatMap, mem_upTo] at h
  obtain ⟨co, hco, po, hpo, h⟩ := h
  by_cases g5 : pp - po < 0 ∨ pc - co < 0 ∨ (pp - po) + (pc - co) > r2
  · rw [if_pos g5] at h; simp at h
  rw [if_neg g5] at h
  simp only [List.mem_map, mem_upTo, le_min_iff] at h
  obtain ⟨δ, hδ, rfl⟩ := h
  exact ⟨co, po, δ, rfl, by omega, by omega, by omega, by omega, by omega, by omega, by omega, by omega, by omega⟩

theorem contraction_eq {L S δ i cp pc pp co po : ℤ} (hL : 0 ≤ L) (hi : 0 ≤ i) (hcp : 0 ≤ cp) (hco : 0 ≤ co) (hpo : 0 ≤ po) (h1 : po ≤ pp) (h2 : co ≤ pc) :
    (⟨L, S, δ, i, cp, pc, pp, co, po⟩ : Contraction) =
      contraction L.toNat S δ i.toNat co.toNat (pc - co).toNat po.toNat (pp - po).toNat cp.toNat := by
  unfold contraction
  simp only [Contraction.mk.injEq]
  refine ⟨by omega, trivial, trivial, by omega, by omega, by omega, by omega, by omega, by omega⟩

theorem complete_even {S1 S2 J : ℕ} {L i cp pc pp co po : ℤ} (hL : 0 ≤ L) (hi : 0 ≤ i) (hcp : 0 ≤ cp) (hco : 0 ≤ co) (hpo : 0 ≤ po) (h1 : po ≤ pp) (h2 : co ≤ pc)
    (g2 : 2 * i + pc + pp = (S1 : ℤ) + S2) (g3 : pc + cp = L) (g4 : cp + pp = J) (k1 : co + po ≤ S1 - i) (k2 : (pp - po) + (pc - co) ≤ S2 - i) :
    Complete S1 S2 L.toNat J i.toNat co.toNat (pc - co).toNat po.toNat (pp - po).toNat cp.toNat :=
  ⟨0, 0, 0, 0, by omega, by omega, by omega, by omega, Or.inl ⟨rfl, rfl, rfl, rfl⟩⟩

theorem complete_odd {S1 S2 J : ℕ} {L i cp pc pp co po a b : ℤ} (hL : 0 ≤ L) (hi : 0 ≤ i) (hcp : 0 ≤ cp) (hco : 0 ≤ co) (hpo : 0 ≤ po) (h1 : po ≤ pp) (h2 : co ≤ pc)
    (g1 : 2 * (i + pc + cp + pp) = (S1 : ℤ) + S2 + L + J - 3)
    (ha : a = S1 - i - (co + po)) (hb : b = S2 - i - ((pp - po) + (pc - co))) (ha0 : 0 ≤ a) (ha1 : a ≤ 1) (hb0 : 0 ≤ b) (hb1 : b ≤ 1)
    (g2 : L - pc - cp ≤ 1) (g3 : (J : ℤ) - pp - cp ≤ 1) :
    Complete S1 S2 L.toNat J i.toNat co.toNat (pc - co).toNat po.toNat (pp - po).toNat cp.toNat := by
  have k : 0 ≤ L - pc - cp := by omega
  have k' : 0 ≤ (J : ℤ) - pp - cp := by omega
  exact ⟨a.toNat, b.toNat, (L - pc - cp).toNat, ((J : ℤ) - pp - cp).toNat, by omega, by omega, by omega, by omega, Or.inr (by omega)⟩

theorem excluded_odd_half {L i cp pc pp : ℤ} (hL : 0 ≤ L) (hi : 0 ≤ i) (hcp : 0 ≤ cp) (hpc : 0 ≤ pc) (hpp : 0 ≤ pp)
    (hE : ¬ ((c.S1 : ℤ) + c.S2 + L + c.J) % 2 = 0) (g1 : i + pc + cp + pp = ((c.S1 : ℤ) + c.S2 + L + c.J - 3).tdiv 2) :
    2 * (i + pc + cp + pp) = (c.S1 : ℤ) + c.S2 + L + c.J - 3 ∨ ((c.S1 : ℤ) + c.S2 + L + c.J = 1 ∧ i = 0 ∧ pc = 0 ∧ cp = 0 ∧ pp = 0) := by
  rcases le_or_gt 3 ((c.S1 : ℤ) + c.S2 + L + c.J) with h | h
  · left; rw [tdiv2 (by omega)] at g1; omega
  · right
    have h1 : (c.S1 : ℤ) + c.S2 + L + c.J = 1 := by omega
    have h0 : ((c.S1 : ℤ) + c.S2 + L + c.J - 3).tdiv 2 = -1 := by rw [h1]; rfl
    omega

theorem contractions_sound {L S : ℤ} (hL : 0 ≤ L) (hp : L % 2 = c.lStart) {x : Contraction} (h : x ∈ c.contractions L S) :
    ∃ i co ce po pe cp : ℕ, ∃ δ : ℤ, x = contraction L.toNat S δ i co ce po pe cp ∧ (0 ≤ δ ∧ δ ≤ S ∧ δ ≤ c.J) ∧
      Complete c.S1 c.S2 L.toNat c.J i co ce po pe cp := by
  have hev := even_iff hp
  unfold Channel.contractions at h
  simp only [List.mem_flatMap (b := x)] at h
  obtain ⟨i, hi, cp, hcp, pc, hpc, pp, hpp, h⟩ := h
  rw [mem_upTo] at hi hcp hpc hpp
  by_cases he : c.excluded L i pc cp pp = true
  · rw [if_pos he] at h; simp at h
  rw [if_neg he] at h
  unfold Channel.rank at h
  dsimp only at h
  by_cases hE : c.even = true
  · rw [if_pos hE] at h
    obtain ⟨g1, g2, g3, g4⟩ := included_even hE he
    obtain ⟨co, po, δ, rfl, k1, k2, k3, k4, k5, k6, k7, k8, k9⟩ := mem_inner (c := c) (by simpa only [List.mem_flatMap] using h)
    exact ⟨_, _, _, _, _, _, δ, contraction_eq hL hi.1 hcp.1 k1 k2 k4 k5, ⟨k7, k8, k9⟩, complete_even hL hi.1 hcp.1 k1 k2 k4 k5 g2 g3 g4 k3 k6⟩
  · have hE0 : c.even = false := by simpa using hE
    have hE' : ¬ ((c.S1 : ℤ) + c.S2 + L + c.J) % 2 = 0 := fun h => hE (hev.mpr h)
    rw [if_neg hE] at h
    obtain ⟨g1, g2, g3⟩ := included_odd hE0 he
    have g1' := excluded_odd_half hL hi.1 hcp.1 hpc.1 hpp.1 hE' g1
    by_cases g4 : (c.S1 : ℤ) + c.S2 - 2 * i - pc - pp < 0 ∨ (c.S1 : ℤ) + c.S2 - 2 * i - pc - pp > 2
    · rw [if_pos g4] at h; simp at h
    rw [if_neg g4] at h
    have g1'' : 2 * (i + pc + cp + pp) = (c.S1 : ℤ) + c.S2 + L + c.J - 3 := by
      rcases g1' with h | h
      · exact h
      · have h0 : ((c.S1 : ℤ) + c.S2 + L + c.J - 3).tdiv 2 = -1 := by rw [h.1]; rfl
        omega
    by_cases g5 : (c.S1 : ℤ) + c.S2 - 2 * i - pc - pp = 2
    · rw [if_pos g5] at h
      by_cases g6 : (c.S1 : ℤ) - i > 0 ∧ (c.S2 : ℤ) - i > 0
      · rw [if_pos g6] at h
        obtain ⟨co, po, δ, rfl, k1, k2, k3, k4, k5, k6, k7, k8, k9⟩ := mem_inner (c := c) (by simpa only [List.mem_flatMap] using h)
        exact ⟨_, _, _, _, _, _, δ, contraction_eq hL hi.1 hcp.1 k1 k2 k4 k5, ⟨k7, k8, k9⟩,
          complete_odd hL hi.1 hcp.1 k1 k2 k4 k5 g1'' rfl rfl (by omega) (by omega) (by omega) (by omega) g2 g3⟩
      · rw [if_neg g6] at h; simp at h
    · rw [if_neg g5] at h
      obtain ⟨co, po, δ, rfl, k1, k2, k3, k4, k5, k6, k7, k8, k9⟩ := mem_inner (c := c) (by simpa only [List.mem_flatMap] using h)
      exact ⟨_, _, _, _, _, _, δ, contraction_eq hL hi.1 hcp.1 k1 k2 k4 k5, ⟨k7, k8, k9⟩,
        complete_odd hL hi.1 hcp.1 k1 k2 k4 k5 g1'' rfl rfl (by omega) (by omega) (by omega) (by omega) g2 g3⟩

theorem contractions_complete {L S : ℤ} (hL : 0 ≤ L) (hp : L % 2 = c.lStart) {i co ce po pe cp : ℕ} {δ : ℤ}
    (hδ : 0 ≤ δ ∧ δ ≤ S ∧ δ ≤ c.J) (hC : Complete c.S1 c.S2 L.toNat c.J i co ce po pe cp) :
    contraction L.toNat S δ i co ce po pe cp ∈ c.contractions L S := by
  have hev := even_iff hp
  obtain ⟨a, b, d, e, h1, h2, h3, h4, h5⟩ := hC
  unfold Channel.contractions
  simp only [List.mem_flatMap, mem_upTo, le_min_iff]
  have hLn : ((L.toNat : ℕ) : ℤ) = L := Int.toNat_of_nonneg hL
  refine ⟨i, by omega, cp, by omega, (co + ce : ℕ), by unfold Channel.sMax; omega, (po + pe : ℕ), by unfold Channel.sMax; omega, ?_⟩
  have td : ∀ x : ℤ, 0 ≤ x → x.tdiv 2 = x / 2 := fun x hx => Int.tdiv_eq_ediv_of_nonneg hx
  have hx : ¬ c.excluded L i (co + ce : ℕ) cp (po + pe : ℕ) = true := by
    unfold Channel.excluded Channel.indexContractions
    dsimp only
    by_cases hE : c.even = true
    · have hE' := hev.mp hE
      simp only [hE, if_true]
      rw [td _ (by omega), if_neg (by omega), if_neg (by omega), if_neg (by omega), if_neg (by omega)]; simp
    · have hE0 : c.even = false := by simpa using hE
      have hE' : ¬ ((c.S1 : ℤ) + c.S2 + L + c.J) % 2 = 0 := fun h => hE (hev.mpr h)
      simp only [hE0, Bool.false_eq_true, if_false]
      rw [td _ (by omega), if_neg (by omega), if_neg (by omega), if_neg (by omega)]; simp
  rw [if_neg hx]
  have hr : ∃ r, c.rank i (co + ce : ℕ) (po + pe : ℕ) = some r ∧ (co : ℤ) + po ≤ r.1 ∧ (ce : ℤ) + pe ≤ r.2 := by
    unfold Channel.rank
    dsimp only
    by_cases hE : c.even = true
    · rw [if_pos hE]; exact ⟨_, rfl, by dsimp only; omega, by dsimp only; omega⟩
    · have hE' : ¬ ((c.S1 : ℤ) + c.S2 + L + c.J) % 2 = 0 := fun h => hE (hev.mpr h)
      rw [if_neg hE, if_neg (by omega)]
      by_cases h2' : (c.S1 : ℤ) + c.S2 - 2 * i - (co + ce : ℕ) - (po + pe : ℕ) = 2
      · rw [if_pos h2', if_pos (by omega)]; exact ⟨_, rfl, by dsimp only; omega, by dsimp only; omega⟩
      · rw [if_neg h2']; exact ⟨_, rfl, by dsimp only; omega, by dsimp only; omega⟩
  obtain ⟨r, r1, r2, r3⟩ := hr
  rw [r1]
  dsimp only
  simp only [List.mem_flatMap, mem_upTo]
  refine ⟨co, by omega, po, by omega, ?_⟩
  rw [if_neg (by omega)]
  simp only [List.mem_map, mem_upTo, le_min_iff]
  refine ⟨δ, by omega, ?_⟩
  simp only [contraction, hLn]

theorem nodup_flatMap {α β : Type} {l : List α} {f : α → List β} (g : β → α) (h : ∀ a ∈ l, ∀ b ∈ f a, g b = a) (h1 : l.Nodup) (h2 : ∀ a, (f a).Nodup) :
    (l.flatMap f).Nodup := by
  rw [List.nodup_flatMap]
  refine ⟨fun a _ => h2 a, ?_⟩
  refine h1.imp_of_mem fun {a b} ha hb hab => ?_
  intro x hx hx'
  exact hab ((h a ha x hx).symm.trans (h b hb x hx'))

theorem contractions_nodup (c : Channel) (L S : ℤ) : (c.contractions L S).Nodup := by
  unfold Channel.contractions
  have hif : ∀ (p : Prop) [Decidable p] (l : List Contraction), l.Nodup → (if p then [] else l).Nodup := by
    intro p _ l hl; split_ifs <;> simp [hl]
  have hmem : ∀ (p : Prop) [Decidable p] (l : List Contraction) (x : Contraction), x ∈ (if p then [] else l) → x ∈ l := by
    intro p _ l x hx; split_ifs at hx <;> simp_all
  have fields : ∀ {i cp pc pp r1 r2 : ℤ} {x : Contraction}, (x ∈ (upTo 0 r1).flatMap fun co => (upTo 0 (r1 - co)).flatMap fun po =>
      if pp - po < 0 ∨ pc - co < 0 ∨ (pp - po) + (pc - co) > r2 then []
      else (upTo 0 (min S c.J)).map fun delta => (⟨L, S, delta, i, cp, pc, pp, co, po⟩ : Contraction)) →
      x.cPsiInt = i ∧ x.cChiPhi = cp ∧ x.cPsiChi = pc ∧ x.cPsiPhi = pp := by
    intro i cp pc pp r1 r2 x h
    obtain ⟨co, po, δ, rfl, -⟩ := mem_inner (c := c) h
    exact ⟨rfl, rfl, rfl, rfl⟩
  refine nodup_flatMap (·.cPsiInt) ?_ (upTo_nodup _ _) fun i => nodup_flatMap (·.cChiPhi) ?_ (upTo_nodup _ _) fun cp =>
    nodup_flatMap (·.cPsiChi) ?_ (upTo_nodup _ _) fun pc => nodup_flatMap (·.cPsiPhi) ?_ (upTo_nodup _ _) fun pp => hif _ _ ?_
  rotate_right
  · cases c.rank i pc pp with
    | none => simp
    | some r =>
      refine nodup_flatMap (·.cChiOme) ?_ (upTo_nodup _ _) fun co => nodup_flatMap (·.cPhiOme) ?_ (upTo_nodup _ _) fun po => hif _ _ ?_
      · intro a _ x hx
        simp only [List.mem_flatMap] at hx
        obtain ⟨po, -, hx⟩ := hx
        have := hmem _ _ _ hx
        simp only [List.mem_map] at this
        obtain ⟨δ, -, rfl⟩ := this
        rfl
      · intro a _ x hx
        have := hmem _ _ _ hx
        simp only [List.mem_map] at this
        obtain ⟨δ, -, rfl⟩ := this
        rfl
      · exact List.Nodup.map (fun a b h => by simpa using h) (upTo_nodup _ _)
  · intro a _ x hx
    simp only [List.mem_flatMap (b := x)] at hx
    obtain ⟨_, -, _, -, _, -, hx⟩ := hx
    have hx' := hmem _ _ _ hx
    split at hx'
    · simp at hx'
    · exact (fields hx').1
  · intro a _ x hx
    simp only [List.mem_flatMap (b := x)] at hx
    obtain ⟨_, -, _, -, hx⟩ := hx
    have hx' := hmem _ _ _ hx
    split at hx'
    · simp at hx'
    · exact (fields hx').2.1
  · intro a _ x hx
    simp only [List.mem_flatMap (b := x)] at hx
    obtain ⟨_, -, hx⟩ := hx
    have hx' := hmem _ _ _ hx
    split at hx'
    · simp at hx'
    · exact (fields hx').2.2.1
  · intro a _ x hx
    have hx' := hmem _ _ _ hx
    split at hx'
    · simp at hx'
    · exact (fields hx').2.2.2

end Rpwa.SpinTensor
