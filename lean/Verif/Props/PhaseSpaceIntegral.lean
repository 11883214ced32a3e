import Verif.Spec.PhaseSpaceIntegral
import Verif.Props.MassDependence
/-!
# C58: tabulated phase-space integrals, part 1: tables and amplitudes
-/
namespace Rpwa.PSI

open Rpwa.MassDep Rpwa.PSI.Spec

/-- the search finds neighbouring points around `M`, or there are none and both results are the same point -/
theorem findInterval_cases (M : ℝ) : ∀ (p : Point) (ps : List Point),
    (∃ a b, findInterval M p ps = (a, b) ∧ [a, b] <:+: p :: ps ∧ a.M ≤ M ∧ M < b.M) ∨
    ((∃ x, findInterval M p ps = (x, x)) ∧ ¬∃ a b, [a, b] <:+: p :: ps ∧ a.M ≤ M ∧ M < b.M)
  | p, [] => by
    refine Or.inr ⟨⟨p, rfl⟩, ?_⟩
    rintro ⟨a, b, h, -, -⟩
    have := h.length_le
    simp at this
  | p, q :: ps => by
    by_cases hc : p.M ≤ M ∧ M < q.M
    · refine Or.inl ⟨p, q, by unfold findInterval; exact if_pos hc, ?_, hc⟩
      exact (List.prefix_append [p, q] ps).isInfix
    · have hs : findInterval M p (q :: ps) = findInterval M q ps := by
        conv_lhs => unfold findInterval
        exact if_neg hc
      rw [hs]
      rcases findInterval_cases M q ps with ⟨a, b, h1, h2, h3⟩ | ⟨h1, h2⟩
      · exact Or.inl ⟨a, b, h1, h2.trans (List.suffix_cons p (q :: ps)).isInfix, h3⟩
      · refine Or.inr ⟨h1, ?_⟩
        rintro ⟨a, b, h, hm⟩
        rcases List.infix_cons_iff.mp h with h | h
        · have h' := List.cons_prefix_cons.mp h
          have h'' := List.cons_prefix_cons.mp h'.2
          rw [h'.1, h''.1] at hm
          exact hc hm
        · exact h2 ⟨a, b, h, hm⟩

theorem infix_lt {t : Tab} (ht : Increasing t) {a b : Point} (h : [a, b] <:+: t) : a.M < b.M := by
  have := List.Pairwise.sublist h.sublist ht
  simpa using this

theorem infix_mem {t : Tab} {a b : Point} (h : [a, b] <:+: t) : a ∈ t ∧ b ∈ t :=
  ⟨h.subset (by simp), h.subset (by simp)⟩

theorem infix_unique : ∀ {t : Tab}, Increasing t → ∀ {M : ℝ} {a b a' b' : Point}, [a, b] <:+: t → [a', b'] <:+: t →
    a.M ≤ M → M < b.M → a'.M ≤ M → M < b'.M → a = a' ∧ b = b'
  | [], _, M, a, b, a', b', h, _, _, _, _, _ => by
    have := h.length_le
    simp at this
  | p :: t, ht, M, a, b, a', b', h, h', h1, h2, h3, h4 => by
    have htt : Increasing t := (List.pairwise_cons.mp ht).2
    have key : ∀ {a b a' b' : Point}, [a, b] <+: p :: t → [a', b'] <:+: t → M < b.M → a'.M ≤ M → False := by
      intro a b a' b' h h' h2 h3
      have e := List.cons_prefix_cons.mp h
      cases t with
      | nil => have := h'.length_le; simp at this
      | cons q qs =>
        have e' := List.cons_prefix_cons.mp e.2
        have hm := (infix_mem h').1
        rcases List.mem_cons.mp hm with hm | hm
        · rw [hm, ← e'.1] at h3; linarith
        · have := (List.pairwise_cons.mp htt).1 _ hm
          rw [← e'.1] at this
          linarith
    rcases List.infix_cons_iff.mp h with h | h <;> rcases List.infix_cons_iff.mp h' with h' | h'
    · have e := List.cons_prefix_cons.mp h
      have e' := List.cons_prefix_cons.mp h'
      refine ⟨e.1.trans e'.1.symm, ?_⟩
      cases t with
      | nil => exact absurd e.2.length_le (by simp)
      | cons q qs => exact (List.cons_prefix_cons.mp e.2).1.trans (List.cons_prefix_cons.mp e'.2).1.symm
    · exact (key h h' h2 h3).elim
    · exact (key h' h h4 h1).elim
    · exact infix_unique htt h h' h1 h2 h3 h4

/-- **C58** looking up an integral yields the linear interpolation between the neighbouring points of the table, and not a
number where there are none. -/
theorem interpolate_spec {t : Tab} (ht : Increasing t) (M y : ℝ) : interpolate t M = some y ↔ Interpolates t M y := by
  cases t with
  | nil =>
    refine ⟨fun h => absurd h (by intro h; cases h), ?_⟩
    rintro ⟨p, q, h, -⟩
    have := h.length_le
    simp at this
  | cons p ps =>
    rcases findInterval_cases M p ps with ⟨a, b, h1, h2, h3, h4⟩ | ⟨⟨x, h1⟩, h2⟩
    · have hlt := infix_lt ht h2
      have hi : interpolate (p :: ps) M = some (a.val + (b.val - a.val) / (b.M - a.M) * (M - a.M)) := by
        unfold interpolate
        dsimp only
        rw [h1, fdiv_some (by dsimp only; linarith)]
        rfl
      rw [hi]
      have hy : a.val + (b.val - a.val) / (b.M - a.M) * (M - a.M) =
          a.val + (b.val - a.val) * ((M - a.M) / (b.M - a.M)) := by ring
      constructor
      · intro h
        exact ⟨a, b, h2, h3, h4, by rw [← hy]; exact (Option.some.inj h).symm⟩
      · rintro ⟨a', b', g2, g3, g4, rfl⟩
        obtain ⟨rfl, rfl⟩ := infix_unique ht h2 g2 h3 h4 g3 g4
        rw [hy]
    · have hi : interpolate (p :: ps) M = none := by
        unfold interpolate
        dsimp only
        rw [h1]
        dsimp only
        rw [sub_self x.M, fdiv_zero]
        rfl
      rw [hi]
      refine ⟨fun h => absurd h (by intro h; cases h), ?_⟩
      rintro ⟨a, b, g2, g3, g4, -⟩
      exact (h2 ⟨a, b, g2, g3, g4⟩).elim

theorem neighbours_exist : ∀ (p : Point) (ps : List Point) (q : Point) (M : ℝ), p.M ≤ M → M < q.M →
    (p :: ps).getLast? = some q → ∃ a b, [a, b] <:+: p :: ps ∧ a.M ≤ M ∧ M < b.M
  | p, [], q, M, h1, h2, h3 => by
    simp at h3
    subst h3
    linarith
  | p, r :: ps, q, M, h1, h2, h3 => by
    by_cases hr : M < r.M
    · exact ⟨p, r, (List.prefix_append [p, r] ps).isInfix, h1, hr⟩
    · obtain ⟨a, b, h, hm⟩ := neighbours_exist r ps q M (not_lt.mp hr) h2 (by rwa [List.getLast?_cons_cons] at h3)
      exact ⟨a, b, h.trans (List.suffix_cons p (r :: ps)).isInfix, hm⟩

theorem Spec.Valid.bounds {t : Tab} {lo hi : ℝ} (h : Valid t lo hi) : ∀ p ∈ t, lo ≤ p.M ∧ p.M ≤ hi := by
  intro p hp
  obtain ⟨f, fs, hf, hlo⟩ := h.first
  obtain ⟨ls, l, hl, hhi⟩ := h.last
  constructor
  · rw [hf] at hp
    rcases List.mem_cons.mp hp with rfl | hp
    · exact hlo.ge
    · have := h.increasing
      rw [hf] at this
      exact (hlo ▸ (List.pairwise_cons.mp this).1 p hp).le
  · rw [hl] at hp
    rcases List.mem_append.mp hp with hp | hp
    · have := h.increasing
      rw [hl] at this
      exact (hhi ▸ (List.pairwise_append.mp this).2.2 p hp l (by simp)).le
    · rw [List.mem_singleton.mp hp]
      exact hhi.le

theorem covered_iff {t : Tab} {lo hi : ℝ} (h : Valid t lo hi) (M : ℝ) :
    (∃ a b, [a, b] <:+: t ∧ a.M ≤ M ∧ M < b.M) ↔ lo ≤ M ∧ M < hi := by
  constructor
  · rintro ⟨a, b, h1, h2, h3⟩
    have := infix_mem h1
    exact ⟨(h.bounds a this.1).1.trans h2, lt_of_lt_of_le h3 (h.bounds b this.2).2⟩
  · rintro ⟨h1, h2⟩
    obtain ⟨f, fs, hf, hlo⟩ := h.first
    obtain ⟨ls, l, hl, hhi⟩ := h.last
    have hlast : (f :: fs).getLast? = some l := by rw [← hf, hl]; simp
    rw [hf]
    exact neighbours_exist f fs l M (hlo ▸ h1) (hhi ▸ h2) hlast

/-- **C58** the integral is a number exactly from the lower end of the table up to, not including, its upper end. -/
theorem interpolate_range {t : Tab} {lo hi : ℝ} (h : Valid t lo hi) (M : ℝ) :
    (interpolate t M).isSome ↔ lo ≤ M ∧ M < hi := by
  rw [← covered_iff h M, Option.isSome_iff_exists]
  constructor
  · rintro ⟨y, hy⟩
    obtain ⟨p, q, h1, h2, h3, -⟩ := (interpolate_spec h.increasing M y).mp hy
    exact ⟨p, q, h1, h2, h3⟩
  · rintro ⟨p, q, h1, h2, h3⟩
    exact ⟨_, (interpolate_spec h.increasing M _).mpr ⟨p, q, h1, h2, h3, rfl⟩⟩

theorem mem_unique {t : Tab} (ht : Increasing t) {p q : Point} (hp : p ∈ t) (hq : q ∈ t) (h : p.M = q.M) : p = q := by
  by_contra hne
  have := List.Pairwise.forall_of_forall_of_flip (l := t) (R := fun a b => a = b ∨ a.M ≠ b.M) ?_ ?_ ?_ hp hq
  · rcases this with this | this
    · exact hne this
    · exact this h
  · intro x _; exact Or.inl rfl
  · exact ht.imp (fun h => Or.inr h.ne)
  · exact ht.imp (fun h => Or.inr h.ne')

/-- **C58** at the points of the table the integral is the tabulated value; at the last one it is not a number. -/
theorem interpolate_point {t : Tab} {lo hi : ℝ} (h : Valid t lo hi) {p : Point} (hp : p ∈ t) :
    interpolate t p.M = if p.M < hi then some p.val else none := by
  split_ifs with hlt
  · obtain ⟨a, b, h1, h2, h3⟩ := (covered_iff h p.M).mpr ⟨(h.bounds p hp).1, hlt⟩
    have hap : a = p := by
      -- `p` is at or before `a`, and at or after it
      obtain ⟨s, u, hs⟩ := h1
      have hinc := h.increasing
      rw [← hs] at hp hinc
      simp only [List.append_assoc, List.mem_append, List.mem_cons] at hp
      unfold Increasing at hinc
      simp only [List.append_assoc, List.pairwise_append, List.cons_append, List.nil_append, List.pairwise_cons] at hinc
      rcases hp with hp | (hp | hp | hp) | hp
      · have := hinc.2.2 p hp a (by simp)
        linarith
      · exact hp.symm
      · rw [hp] at h3; exact (lt_irrefl _ h3).elim
      · simp at hp
      · have := hinc.2.1.2.1 p hp
        linarith
    subst hap
    rw [(interpolate_spec h.increasing a.M a.val).mpr ⟨a, b, h1, le_refl _, h3, by simp⟩]
  · have := (interpolate_range h p.M).not.mpr (fun h => hlt h.2)
    simpa using this

/-! ### adding points -/

theorem addLoop_out (new : Point) : ∀ (last : Point) (ps : List Point),
    (¬∃ a b, [a, b] <:+: last :: ps ∧ a.M ≤ new.M ∧ new.M < b.M) → addLoop new last ps = (ps, false)
  | _, [], _ => rfl
  | last, p :: ps, h => by
    have hn : ¬(last.M ≤ new.M ∧ new.M < p.M) :=
      fun hc => h ⟨last, p, (List.prefix_append [last, p] ps).isInfix, hc⟩
    have ih := addLoop_out new p ps
      (fun ⟨a, b, h1, h2⟩ => h ⟨a, b, h1.trans (List.suffix_cons last (p :: ps)).isInfix, h2⟩)
    unfold addLoop
    dsimp only
    rw [if_neg hn, ih]

theorem addLoop_in (new : Point) : ∀ (last : Point) (ps : List Point), Increasing (last :: ps) →
    (∀ p ∈ last :: ps, p.M ≠ new.M) → (∃ a b, [a, b] <:+: last :: ps ∧ a.M ≤ new.M ∧ new.M < b.M) →
    ∃ s u b, last :: ps = s ++ b :: u ∧ s ≠ [] ∧ (∀ p ∈ s, p.M < new.M) ∧ new.M < b.M ∧
      addLoop new last ps = ((s ++ new :: b :: u).tail, true)
  | last, [], _, _, ⟨a, b, h, _⟩ => by
    have := h.length_le
    simp at this
  | last, p :: ps, hinc, hne, hex => by
    by_cases hc : last.M ≤ new.M ∧ new.M < p.M
    · refine ⟨[last], ps, p, rfl, by simp, ?_, hc.2, ?_⟩
      · intro q hq
        rw [List.mem_singleton.mp hq]
        exact lt_of_le_of_ne hc.1 (hne last (by simp))
      · have hout : addLoop new p ps = (ps, false) := by
          apply addLoop_out
          rintro ⟨a, b, h1, h2, -⟩
          have hm := (infix_mem h1).1
          have : p.M ≤ a.M := by
            rcases List.mem_cons.mp hm with rfl | hm
            · exact le_refl _
            · exact ((List.pairwise_cons.mp (List.pairwise_cons.mp hinc).2).1 a hm).le
          linarith [hc.2]
        unfold addLoop
        dsimp only
        rw [if_pos hc, hout]
        rfl
    · have hinc' : Increasing (p :: ps) := (List.pairwise_cons.mp hinc).2
      have hex' : ∃ a b, [a, b] <:+: p :: ps ∧ a.M ≤ new.M ∧ new.M < b.M := by
        obtain ⟨a, b, h1, h2⟩ := hex
        rcases List.infix_cons_iff.mp h1 with h1 | h1
        · have e := List.cons_prefix_cons.mp h1
          have e' := List.cons_prefix_cons.mp e.2
          rw [e.1, e'.1] at h2
          exact (hc h2).elim
        · exact ⟨a, b, h1, h2⟩
      obtain ⟨s, u, b, h1, h2, h3, h4, h5⟩ := addLoop_in new p ps hinc' (fun q hq => hne q (List.mem_cons_of_mem _ hq)) hex'
      obtain ⟨p', s', rfl⟩ : ∃ p' s', s = p' :: s' := by
        cases s with
        | nil => exact (h2 rfl).elim
        | cons x xs => exact ⟨x, xs, rfl⟩
      have hpp : p' = p := by simpa using (List.cons.inj h1).1.symm
      subst hpp
      refine ⟨last :: p' :: s', u, b, by rw [h1]; rfl, by simp, ?_, h4, ?_⟩
      · intro q hq
        rcases List.mem_cons.mp hq with rfl | hq
        · exact ((List.pairwise_cons.mp hinc).1 p' (by simp)).trans (h3 p' (by simp))
        · exact h3 q hq
      · unfold addLoop
        dsimp only
        rw [if_neg hc, h5]
        rfl

/-- **C58** a new mass inside the range of the table is inserted at its place; outside of the range, including its upper end,
the program is terminated. -/
theorem addToTable_spec {t : Tab} {lo hi : ℝ} (h : Valid t lo hi) (new : Point) :
    (lo ≤ new.M → new.M < hi → (∀ p ∈ t, p.M ≠ new.M) → ∃ t', addToTable t new = .ok t' ∧ Valid t' lo hi ∧
      ∀ p, p ∈ t' ↔ p ∈ t ∨ p = new) ∧
    (¬(lo ≤ new.M ∧ new.M < hi) → addToTable t new = .terminate) := by
  have hcov := covered_iff h new.M
  obtain ⟨f, fs, hf, hlo⟩ := h.first
  subst hf
  constructor
  · intro h1 h2 h3
    obtain ⟨s, u, b, e1, e2, e3, e4, e5⟩ := addLoop_in new f fs h.increasing h3 (hcov.mpr ⟨h1, h2⟩)
    obtain ⟨f', s', rfl⟩ : ∃ f' s', s = f' :: s' := by
      cases s with
      | nil => exact (e2 rfl).elim
      | cons x xs => exact ⟨x, xs, rfl⟩
    have hff : f' = f := by simpa using (List.cons.inj e1).1.symm
    subst hff
    refine ⟨f' :: s' ++ new :: b :: u, ?_, ?_, ?_⟩
    · unfold addToTable
      dsimp only
      rw [e5]
      rfl
    · refine ⟨?_, ⟨f', s' ++ new :: b :: u, rfl, hlo⟩, ?_, h.range⟩
      · have hi := h.increasing
        unfold Increasing at hi ⊢
        rw [e1, List.pairwise_append] at hi
        rw [List.pairwise_append]
        refine ⟨hi.1, List.pairwise_cons.mpr ⟨?_, hi.2.1⟩, ?_⟩
        · intro q hq
          rcases List.mem_cons.mp hq with rfl | hq
          · exact e4
          · exact e4.trans ((List.pairwise_cons.mp hi.2.1).1 q hq)
        · intro q hq r hr
          rcases List.mem_cons.mp hr with rfl | hr
          · exact e3 q hq
          · exact hi.2.2 q hq r hr
      · obtain ⟨ls, l, hl, hhi⟩ := h.last
        have hbu : ∃ ms, b :: u = ms ++ [l] := by
          have hne : b :: u ≠ [] := by simp
          refine ⟨(b :: u).dropLast, ?_⟩
          have hlast : (b :: u).getLast hne = l := by
            have h1 : (f' :: s' ++ b :: u).getLast? = some l := by rw [← e1, hl]; simp
            rw [List.getLast?_append_of_ne_nil _ hne, List.getLast?_eq_getLast_of_ne_nil hne] at h1
            exact Option.some.inj h1
          rw [← hlast]
          exact (List.dropLast_append_getLast hne).symm
        obtain ⟨ms, hms⟩ := hbu
        refine ⟨f' :: s' ++ new :: ms, l, ?_, hhi⟩
        rw [hms]
        simp
    · intro p
      rw [e1]
      simp only [List.mem_append, List.mem_cons]
      tauto
  · intro hout
    unfold addToTable
    dsimp only
    rw [addLoop_out new f fs (fun hex => hout (hcov.mp hex))]
    rfl

theorem getInt0_near {eval : ℕ → ℝ → ℝ} {s : State} {M0 : ℝ} (h : Near s.table M0) :
    getInt0 eval s M0 = .ok (interpolate s.table M0, s) := by
  rw [getInt0]
  exact if_pos h

theorem getInt0_add {eval : ℕ → ℝ → ℝ} {s : State} {M0 : ℝ} {t : Tab} (h : ¬Near s.table M0)
    (ht : addToTable s.table ⟨M0, eval s.calls M0⟩ = .ok t) :
    getInt0 eval s M0 = .ok (interpolate t M0, ⟨t, .full t, s.calls + 1⟩) := by
  rw [getInt0, if_neg h]
  split
  · rename_i t' h'
    rw [ht] at h'
    cases h'
    exact getInt0_near (addToTable_near ht)
  · rename_i h'; rw [ht] at h'; cases h'
  · rename_i h'; rw [ht] at h'; cases h'

theorem getInt0_out {eval : ℕ → ℝ → ℝ} {s : State} {M0 : ℝ} (h : ¬Near s.table M0)
    (ht : addToTable s.table ⟨M0, eval s.calls M0⟩ = .terminate) : getInt0 eval s M0 = .terminate := by
  rw [getInt0, if_neg h]
  split
  · rename_i t' h'; rw [ht] at h'; cases h'
  · rfl
  · rename_i h'; rw [ht] at h'; cases h'

theorem near_of_mem {t : Tab} {p : Point} (hp : p ∈ t) : Near t p.M :=
  ⟨p, hp, by rw [sub_self, abs_zero]; norm_num⟩

theorem not_near_ne {t : Tab} {M0 : ℝ} (h : ¬Near t M0) : ∀ p ∈ t, p.M ≠ M0 := by
  rintro p hp rfl
  exact h (near_of_mem hp)

/-- **C58** the integral at the nominal mass: the table is used if it has a point there; otherwise a new estimate is made,
inserted, stored in the file and returned; if the nominal mass is outside the table the program is terminated. -/
theorem getInt0_spec {eval : ℕ → ℝ → ℝ} {s : State} {lo hi M0 : ℝ} (h : Valid s.table lo hi) :
    (Near s.table M0 → getInt0 eval s M0 = .ok (interpolate s.table M0, s)) ∧
    (¬Near s.table M0 → lo ≤ M0 → M0 < hi → ∃ t, getInt0 eval s M0 =
        .ok (some (eval s.calls M0), ⟨t, .full t, s.calls + 1⟩) ∧ Valid t lo hi ∧
        ∀ p, p ∈ t ↔ p ∈ s.table ∨ p = ⟨M0, eval s.calls M0⟩) ∧
    (¬Near s.table M0 → ¬(lo ≤ M0 ∧ M0 < hi) → getInt0 eval s M0 = .terminate) := by
  refine ⟨getInt0_near, fun hn h1 h2 => ?_, fun hn h1 => getInt0_out hn ((addToTable_spec h _).2 h1)⟩
  obtain ⟨t, e1, e2, e3⟩ := (addToTable_spec h ⟨M0, eval s.calls M0⟩).1 h1 h2 (not_near_ne hn)
  refine ⟨t, ?_, e2, e3⟩
  rw [getInt0_add hn e1]
  have := interpolate_point e2 ((e3 ⟨M0, eval s.calls M0⟩).mpr (Or.inr rfl))
  rw [this, if_pos h2]

/-! ### amplitudes -/

/-- **C58** for a nominal mass in the table, the amplitude is the relativistic Breit-Wigner amplitude whose width is the
nominal one times the ratio of the phase-space integrals at the mass of the isobar and at the nominal mass; nothing else
changes. -/
theorem amp_spec {eval : ℕ → ℝ → ℝ} {s : State} {lo hi M M0 Gamma0 I : ℝ} {p : Point} (h : Valid s.table lo hi)
    (hp : p ∈ s.table) (hM0 : p.M = M0) (hhi : M0 < hi) (hpos : p.val ≠ 0) (hI : Interpolates s.table M I)
    (hden : M0 * M0 - M * M ≠ 0 ∨ M0 * (Gamma0 * (I / p.val)) ≠ 0) :
    amp eval s M M0 Gamma0 = .ok (some (((M0 * Gamma0 : ℝ) : ℂ) /
      (((M0 * M0 - M * M : ℝ) : ℂ) - Complex.I * ((M0 * (Gamma0 * (I / p.val)) : ℝ) : ℂ))), s) := by
  unfold amp
  subst hM0
  dsimp only
  rw [getInt0_near (near_of_mem hp), interpolate_point h hp, if_pos hhi, (interpolate_spec h.increasing M I).mpr hI]
  simp only [Outcome.ok_bind]
  have : (do
      let d ← fdiv (← some I) (← some p.val)
      bwForm (p.M * Gamma0) (p.M * p.M - M * M) (p.M * (Gamma0 * d))) =
      some (((p.M * Gamma0 : ℝ) : ℂ) /
      (((p.M * p.M - M * M : ℝ) : ℂ) - Complex.I * ((p.M * (Gamma0 * (I / p.val)) : ℝ) : ℂ))) := by
    change (fdiv I p.val).bind _ = _
    rw [fdiv_some hpos, Option.bind_some]
    exact bwForm_some hden
  rw [this]
  rfl

/-- **C58** it is `i` at the nominal mass. -/
theorem amp_peak {eval : ℕ → ℝ → ℝ} {s : State} {lo hi M0 Gamma0 : ℝ} {p : Point} (h : Valid s.table lo hi)
    (hp : p ∈ s.table) (hM0 : p.M = M0) (hhi : M0 < hi) (hpos : p.val ≠ 0) (hG : M0 * Gamma0 ≠ 0) :
    amp eval s M0 M0 Gamma0 = .ok (some Complex.I, s) := by
  have hI : Interpolates s.table M0 p.val := by
    rw [← interpolate_spec h.increasing, ← hM0, interpolate_point h hp, if_pos (hM0 ▸ hhi)]
  rw [amp_spec h hp hM0 hhi hpos hI (Or.inr (by rw [div_self hpos, mul_one]; exact hG))]
  have hG' : ((M0 * Gamma0 : ℝ) : ℂ) ≠ 0 := Complex.ofReal_ne_zero.mpr hG
  rw [div_self hpos, mul_one, sub_self, Complex.ofReal_zero, zero_sub]
  congr 3
  rw [div_eq_iff (by simpa using hG'), mul_neg, ← mul_assoc, Complex.I_mul_I]
  ring

/-- **C58** below the lowest and from the highest mass of the table on the amplitude is not a number (if the nominal mass is
inside); no error is reported. -/
theorem amp_outside {eval : ℕ → ℝ → ℝ} {s : State} {lo hi M M0 Gamma0 : ℝ} (h : Valid s.table lo hi)
    (hM : ¬(lo ≤ M ∧ M < hi)) (hM0 : lo ≤ M0) (hM0' : M0 < hi) :
    ∃ s', amp eval s M M0 Gamma0 = .ok (none, s') := by
  have hn : interpolate s.table M = none := by
    simpa using (interpolate_range h M).not.mpr hM
  unfold amp
  dsimp only
  rw [hn]
  by_cases hnear : Near s.table M0
  · rw [getInt0_near hnear]
    exact ⟨s, rfl⟩
  · obtain ⟨t, e, -⟩ := (getInt0_spec (eval := eval) h).2.1 hnear hM0 hM0'
    rw [e]
    exact ⟨_, rfl⟩

/-- **C58** at threshold the tabulated integral is zero, so a resonance with this nominal mass never has a finite amplitude. -/
theorem amp_threshold {eval : ℕ → ℝ → ℝ} {s : State} {lo hi M M0 Gamma0 : ℝ} {p : Point} (h : Valid s.table lo hi)
    (hp : p ∈ s.table) (hM0 : p.M = M0) (hv : p.val = 0) : amp eval s M M0 Gamma0 = .ok (none, s) := by
  unfold amp
  subst hM0
  dsimp only
  rw [getInt0_near (near_of_mem hp), interpolate_point h hp, hv]
  split_ifs
  · cases interpolate s.table p.M <;> cases interpolate s.table M <;>
      first | rfl | (simp only [Outcome.ok_bind]; change Outcome.ok ((fdiv _ 0).bind _, s) = _; rw [fdiv_zero]; rfl)
  · cases interpolate s.table M <;> rfl

end Rpwa.PSI
