import Verif.Props.TreeLeaf
/-! # C96: examples -/
namespace Rpwa.TreeLeaf

/-- two labelled amplitudes. -/
def exLeaf : Leaf := ⟨[0, 0], ["A", "B"], buildMap 0 ["A", "B"] fun _ => none⟩

theorem exLeaf_define : Leaf.define ["A", "B"] Leaf.new = .ok exLeaf := by
  unfold Leaf.define
  rw [if_neg (fun h => (dedup_short _).1 h (by decide))]
  rfl

theorem exLeaf_reachable : Reachable exLeaf := Reachable.define _ Reachable.new exLeaf_define

/-- the second amplitude is set. -/
def exSet : Leaf := { exLeaf with amps := [0, 3] }

theorem exSet_set : Leaf.set 3 1 exLeaf = .ok exSet := by
  unfold Leaf.set
  rw [if_pos (by simp [exLeaf])]
  rfl

theorem exSet_reachable : Reachable exSet := Reachable.set _ _ exLeaf_reachable exSet_set

/-- the amplitude with the label B is found. -/
theorem ex_lookup : exSet.atLabel "B" = .ok 3 ∧ exSet.atLabel "C" = .terminate := by
  refine ⟨?_, ((atLabel_spec exSet_reachable "C").2 (by simp [exSet, exLeaf])).1⟩
  obtain ⟨-, -, -, z, hz, h⟩ := (atLabel_spec exSet_reachable "B").1 1 rfl
  rw [h]
  cases hz
  rfl

/-- storing and reading. -/
theorem ex_stored : exSet.stored = exSet := stored_same exSet_reachable

/-- three times the same amplitude. -/
theorem ex_sum : ∃ s, ([exSet, exSet, exSet].foldlM (fun a b => Leaf.add b a) exLeaf) = .ok s ∧ s.atLabel "B" = .ok 9 := by
  obtain ⟨s, h1, -, h3⟩ := sum_leaves (ls := ["A", "B"]) (by simp) exLeaf_define (bs := [exSet, exSet, exSet])
    (fun b hb => by
      simp only [List.mem_cons, List.not_mem_nil, or_false, or_self] at hb
      subst hb
      exact ⟨exSet_reachable, rfl⟩)
  refine ⟨s, h1, ?_⟩
  obtain ⟨v, hv, hs⟩ := h3 "B" (by simp)
  rw [hs]
  have : v exSet = 3 := by
    have := hv exSet (by simp)
    rw [ex_lookup.1] at this
    exact (Outcome.ok.inj this).symm
  simp only [List.map_cons, List.map_nil, List.sum_cons, List.sum_nil, this]
  norm_num

/-- **C96.** New labels keep the old amplitudes in their places: the amplitude of B is found under the name C. -/
theorem ex_relabel : ∃ b, Leaf.define ["D", "C"] exSet = .ok b ∧ b.atLabel "C" = .ok 3 := by
  obtain ⟨b, h1, h2, h3, h4⟩ := (define_spec ["D", "C"] exSet).1 (by decide)
  refine ⟨b, h1, ?_⟩
  obtain ⟨-, -, -, z, hz, h⟩ := (atLabel_spec (Reachable.define _ exSet_reachable h1) "C").1 1 (by rw [h2]; rfl)
  rw [h4 1 (by simp)] at hz
  cases hz
  exact h

/-- **C96.** A leaf without any label and without any amplitude: it can be made, and adding it to a new leaf is undefined. -/
theorem ex_unlabelled : ∃ b, Leaf.define [] Leaf.new = .ok b ∧ Reachable b ∧ Leaf.add b Leaf.new = .ub := by
  obtain ⟨b, h1, h2, h3, -⟩ := (define_spec [] Leaf.new).1 List.nodup_nil
  have hr := Reachable.define _ Reachable.new h1
  exact ⟨b, h1, hr, (add_iff Reachable.new hr).2.2.2 ⟨by rw [h2]; rfl, rfl, h3⟩⟩

/-- **C96.** `==` is not symmetric: a new leaf equals the leaf with two amplitudes, the other way round memory of others is read; and labels do not matter. -/
theorem ex_equal : Leaf.equal Leaf.new exSet = .ok true ∧ Leaf.equal exSet Leaf.new = .ub ∧ Leaf.new.labels ≠ exSet.labels := by
  refine ⟨(equal_iff _ _).1.2 ⟨[3], rfl⟩, (equal_iff _ _).2.1.2 ⟨⟨[3], rfl⟩, by simp [exSet, Leaf.new]⟩, by simp [exSet, exLeaf, Leaf.new]⟩

end Rpwa.TreeLeaf
