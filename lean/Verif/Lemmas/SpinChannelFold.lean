import Verif.Lemmas.SpinChannel
import Verif.Props.SpinAmpl
/-!
# The loops over the contractions of a channel
-/
namespace Rpwa.SpinTensor
open Fraction CgBox Spec

/-- terms of the LS amplitude of a contraction -/
noncomputable def termsOf (c : Channel) (x : Contraction) : List Term := match lsAmpl (c.args x) with | .ok ts => ts | _ => []

/-- contraction and terms that are kept -/
noncomputable def keep (c : Channel) (x : Contraction) : Option (Contraction × List Term) :=
  open Classical in if termsOf c x ≠ [] then some (x, termsOf c x) else none

def conTerms (a : LsAmpl) : Contraction × List Term := (a.con, a.terms)

/-- numbers in a list of amplitudes with the same `L` and `S` -/
structure Numbered (B : List LsAmpl) (m : ℤ) : Prop where
  nonneg : 0 ≤ m
  same : ∀ a ∈ B, ∀ b ∈ B, a.num = b.num ↔ sameContraction a.con b.con = true
  range : ∀ b ∈ B, 1 ≤ b.num ∧ b.num ≤ m
  all : ∀ k : ℤ, 1 ≤ k → k ≤ m → ∃ b ∈ B, b.num = k

theorem same_contraction_iff {a b : Contraction} : sameContraction a b = true ↔ Same a b := by
  unfold sameContraction Same
  cases a; cases b
  simp only [Bool.and_eq_true, beq_iff_eq, Contraction.mk.injEq, true_and]
  tauto

theorem same_refl (a : Contraction) : sameContraction a a = true := same_contraction_iff.mpr rfl
theorem same_symm {a b : Contraction} (h : sameContraction a b = true) : sameContraction b a = true :=
  same_contraction_iff.mpr (same_contraction_iff.mp h).symm
theorem same_trans {a b d : Contraction} (h : sameContraction a b = true) (h' : sameContraction b d = true) : sameContraction a d = true :=
  same_contraction_iff.mpr ((same_contraction_iff.mp h).trans (same_contraction_iff.mp h'))

theorem addAmpl_block (c : Channel) {L S : ℤ} {as0 : List LsAmpl} (h0 : ∀ a ∈ as0, ¬ (a.con.L = L ∧ a.con.S = S)) :
    ∀ (xs : List Contraction) (B : List LsAmpl) (m : ℤ), (∀ x ∈ xs, x.L = L ∧ x.S = S) → (∀ x ∈ xs, ∃ ts, lsAmpl (c.args x) = .ok ts) →
      (∀ b ∈ B, b.con.L = L ∧ b.con.S = S) → Numbered B m →
      ∃ B' m', xs.foldlM (addAmpl c) (as0 ++ B, m) = .ok (as0 ++ B', m') ∧ B'.map conTerms = B.map conTerms ++ xs.filterMap (keep c) ∧
        (∀ b ∈ B', b.con.L = L ∧ b.con.S = S) ∧ Numbered B' m'
  | [], B, m, _, _, hB, hN => ⟨B, m, rfl, by simp, hB, hN⟩
  | x :: xs, B, m, hx, hr, hB, hN => by
    obtain ⟨ts, hts⟩ := hr x (by simp)
    have ht : termsOf c x = ts := by unfold termsOf; rw [hts]
    by_cases hne : ts = []
    · obtain ⟨B', m', g1, g2, g3, g4⟩ := addAmpl_block c h0 xs B m (fun y hy => hx y (by simp [hy])) (fun y hy => hr y (by simp [hy])) hB hN
      refine ⟨B', m', ?_, ?_, g3, g4⟩
      · rw [List.foldlM_cons]
        have : addAmpl c (as0 ++ B, m) x = .ok (as0 ++ B, m) := by
          unfold addAmpl; rw [hts, Outcome.ok_bind, if_neg (by simpa using hne)]; rfl
        rw [this, Outcome.ok_bind, g1]
      · rw [g2, List.filterMap_cons]
        have : keep c x = none := by unfold keep; rw [ht, if_neg (by simpa using hne)]
        rw [this]
    · have hk : keep c x = some (x, ts) := by unfold keep; rw [ht, if_pos hne]
      have hfind : (as0 ++ B).find? (fun a => sameContraction a.con x) = B.find? (fun a => sameContraction a.con x) := by
        rw [List.find?_append]
        have : as0.find? (fun a => sameContraction a.con x) = none := by
          rw [List.find?_eq_none]
          intro a ha hs
          apply h0 a ha
          have hs := same_contraction_iff.mp hs
          obtain ⟨e1, e2⟩ := hx x (by simp)
          unfold Same at hs
          rw [Contraction.mk.injEq] at hs
          exact ⟨hs.1.trans e1, hs.2.1.trans e2⟩
        rw [this]; rfl
      have key : ∃ num m1, addAmpl c (as0 ++ B, m) x = .ok (as0 ++ (B ++ [⟨x, num, ts⟩]), m1) ∧ Numbered (B ++ [⟨x, num, ts⟩]) m1 := by
        rcases hf : B.find? (fun a => sameContraction a.con x) with _ | a
        · refine ⟨m + 1, m + 1, ?_, ?_⟩
          · unfold addAmpl
            dsimp only
            rw [hts, Outcome.ok_bind, if_pos hne, hfind, hf]
            dsimp only
            have hgt : m + 1 > m := by omega
            rw [if_pos hgt, List.append_assoc]; rfl
          · rw [List.find?_eq_none] at hf
            have hm := hN.nonneg
            refine ⟨by omega, ?_, ?_, ?_⟩
            · intro a ha b hb
              rcases List.mem_append.mp ha with ha | ha <;> rcases List.mem_append.mp hb with hb | hb
              · exact hN.same a ha b hb
              · obtain rfl := List.mem_singleton.mp hb
                have h1 := hN.range a ha
                refine ⟨fun h => ?_, fun h => absurd h (hf a ha)⟩
                dsimp only at h; omega
              · obtain rfl := List.mem_singleton.mp ha
                have h1 := hN.range b hb
                refine ⟨fun h => ?_, fun h => absurd (same_symm h) (hf b hb)⟩
                dsimp only at h; omega
              · obtain rfl := List.mem_singleton.mp ha
                obtain rfl := List.mem_singleton.mp hb
                exact ⟨fun _ => same_refl _, fun _ => rfl⟩
            · intro b hb
              rcases List.mem_append.mp hb with hb | hb
              · have := hN.range b hb; omega
              · obtain rfl := List.mem_singleton.mp hb; dsimp only; omega
            · intro k h1 h2
              rcases eq_or_lt_of_le h2 with h3 | h3
              · exact ⟨⟨x, m + 1, ts⟩, by simp, h3.symm⟩
              · obtain ⟨b, hb, e⟩ := hN.all k h1 (by omega)
                exact ⟨b, by simp [hb], e⟩
        · have ha := List.mem_of_find?_eq_some hf
          have hs : sameContraction a.con x = true := List.find?_some (p := fun a : LsAmpl => sameContraction a.con x) hf
          have hra := hN.range a ha
          refine ⟨a.num, m, ?_, ?_⟩
          · unfold addAmpl
            dsimp only
            rw [hts, Outcome.ok_bind, if_pos hne, hfind, hf]
            dsimp only
            have hgt : ¬ a.num > m := by omega
            rw [if_neg hgt, List.append_assoc]; rfl
          · refine ⟨hN.nonneg, ?_, ?_, ?_⟩
            · intro a' ha' b hb
              rcases List.mem_append.mp ha' with ha' | ha' <;> rcases List.mem_append.mp hb with hb | hb
              · exact hN.same a' ha' b hb
              · obtain rfl := List.mem_singleton.mp hb
                dsimp only
                rw [hN.same a' ha' a ha]
                exact ⟨fun h => same_trans h hs, fun h => same_trans h (same_symm hs)⟩
              · obtain rfl := List.mem_singleton.mp ha'
                dsimp only
                rw [hN.same a ha b hb]
                exact ⟨fun h => same_trans (same_symm hs) h, fun h => same_trans hs h⟩
              · obtain rfl := List.mem_singleton.mp ha'
                obtain rfl := List.mem_singleton.mp hb
                exact ⟨fun _ => same_refl _, fun _ => rfl⟩
            · intro b hb
              rcases List.mem_append.mp hb with hb | hb
              · exact hN.range b hb
              · obtain rfl := List.mem_singleton.mp hb; exact hra
            · intro k h1 h2
              obtain ⟨b, hb, e⟩ := hN.all k h1 h2
              exact ⟨b, by simp [hb], e⟩
      obtain ⟨num, m1, k1, k2⟩ := key
      obtain ⟨B', m', g1, g2, g3, g4⟩ := addAmpl_block c h0 xs (B ++ [⟨x, num, ts⟩]) m1 (fun y hy => hx y (by simp [hy]))
        (fun y hy => hr y (by simp [hy]))
        (by
          intro b hb
          rcases List.mem_append.mp hb with hb | hb
          · exact hB b hb
          · obtain rfl := List.mem_singleton.mp hb; exact hx x (by simp)) k2
      refine ⟨B', m', ?_, ?_, g3, g4⟩
      · rw [List.foldlM_cons, k1, Outcome.ok_bind, g1]
      · rw [g2, List.filterMap_cons, hk]
        simp [conTerms]

theorem mem_contractions_fields {c : Channel} {L S : ℤ} {x : Contraction} (h : x ∈ c.contractions L S) : x.L = L ∧ x.S = S := by
  unfold Channel.contractions at h
  simp only [List.mem_flatMap (b := x)] at h
  obtain ⟨i, hi, cp, hcp, pc, hpc, pp, hpp, h⟩ := h
  split_ifs at h
  · simp at h
  · split at h
    · simp at h
    · obtain ⟨co, po, δ, rfl, -⟩ := mem_inner (c := c) h
      exact ⟨rfl, rfl⟩

/-- numbers in a list of amplitudes -/
def AllNumbered (as : List LsAmpl) : Prop :=
  (∀ a ∈ as, ∀ b ∈ as, a.con.L = b.con.L → a.con.S = b.con.S → (a.num = b.num ↔ Same a.con b.con)) ∧
  (∀ a ∈ as, 1 ≤ a.num ∧ ∀ k : ℤ, 1 ≤ k → k ≤ a.num → ∃ b ∈ as, b.con.L = a.con.L ∧ b.con.S = a.con.S ∧ b.num = k)

theorem lsAmpls_fold (c : Channel) : ∀ (ps : List (ℤ × ℤ)) (as0 : List LsAmpl), ps.Nodup →
    (∀ p ∈ ps, ∀ a ∈ as0, ¬ (a.con.L = p.1 ∧ a.con.S = p.2)) →
    (∀ p ∈ ps, ∀ x ∈ c.contractions p.1 p.2, ∃ ts, lsAmpl (c.args x) = .ok ts) → AllNumbered as0 →
    ∃ as, ps.foldlM (fun as x => do let r ← (c.contractions x.1 x.2).foldlM (addAmpl c) (as, 0); return r.1) as0 = .ok as ∧
      as.map conTerms = as0.map conTerms ++ ps.flatMap (fun p => (c.contractions p.1 p.2).filterMap (keep c)) ∧ AllNumbered as
  | [], as0, _, _, _, hA => ⟨as0, rfl, by simp, hA⟩
  | p :: ps, as0, hn, h0, hr, hA => by
    obtain ⟨B, m, g1, g2, g3, g4⟩ := addAmpl_block c (h0 p (by simp)) (c.contractions p.1 p.2) [] 0
      (fun x hx => mem_contractions_fields hx) (hr p (by simp)) (by simp) ⟨le_refl _, by simp, by simp, by intro k h1 h2; omega⟩
    rw [List.append_nil] at g1
    have hA' : AllNumbered (as0 ++ B) := by
      constructor
      · intro a ha b hb e1 e2
        rcases List.mem_append.mp ha with ha | ha <;> rcases List.mem_append.mp hb with hb | hb
        · exact hA.1 a ha b hb e1 e2
        · have h1 := g3 b hb
          exact absurd ⟨e1.trans h1.1, e2.trans h1.2⟩ (h0 p (by simp) a ha)
        · have h1 := g3 a ha
          exact absurd ⟨e1.symm.trans h1.1, e2.symm.trans h1.2⟩ (h0 p (by simp) b hb)
        · rw [g4.same a ha b hb, same_contraction_iff]
      · intro a ha
        rcases List.mem_append.mp ha with ha | ha
        · obtain ⟨k1, k2⟩ := hA.2 a ha
          refine ⟨k1, fun k h1 h2 => ?_⟩
          obtain ⟨b, hb, e⟩ := k2 k h1 h2
          exact ⟨b, by simp [hb], e⟩
        · have hra := g4.range a ha
          refine ⟨hra.1, fun k h1 h2 => ?_⟩
          obtain ⟨b, hb, e⟩ := g4.all k h1 (by omega)
          have h3 := g3 a ha
          have h4 := g3 b hb
          exact ⟨b, by simp [hb], h4.1.trans h3.1.symm, h4.2.trans h3.2.symm, e⟩
    obtain ⟨as, k1, k2, k3⟩ := lsAmpls_fold c ps (as0 ++ B) hn.of_cons
      (by
        intro q hq a ha
        rcases List.mem_append.mp ha with ha | ha
        · exact h0 q (by simp [hq]) a ha
        · obtain ⟨e1, e2⟩ := g3 a ha
          rintro ⟨e3, e4⟩
          have : p = q := Prod.ext (e1.symm.trans e3) (e2.symm.trans e4)
          exact (List.nodup_cons.mp hn).1 (this ▸ hq))
      (fun q hq => hr q (by simp [hq])) hA'
    refine ⟨as, ?_, ?_, k3⟩
    · rw [List.foldlM_cons, g1]
      exact k1
    · rw [k2, List.flatMap_cons, List.map_append, g2]; simp

end Rpwa.SpinTensor
