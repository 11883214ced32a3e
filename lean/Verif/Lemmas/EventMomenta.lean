import Verif.Model.EventMomenta
import Mathlib.Data.List.Perm.Subperm
import Mathlib.Data.List.Perm.Lattice
import Mathlib.Data.List.Range
import Mathlib.Data.Finset.Card
import Mathlib.Data.Fintype.Card

namespace Rpwa.EventMomenta

section
variable {α M : Type} [DecidableEq α]

/-- positions of a name -/
def pos (names : List α) (nm : α) : List ℕ :=
  (List.range names.length).filter fun i => names[i]? = some nm

theorem pos_append (l : List α) (a nm : α) :
    pos (l ++ [a]) nm = pos l nm ++ if a = nm then [l.length] else [] := by
  unfold pos
  rw [List.length_append, List.length_singleton, List.range_succ, List.filter_append]
  congr 1
  · apply List.filter_congr
    intro i hi
    simp only [List.mem_range] at hi
    rw [List.getElem?_append_left hi]
  · by_cases h : a = nm <;> simp [h]

theorem pos_length (l : List α) (nm : α) : (pos l nm).length = l.count nm := by
  induction l using List.reverseRecOn with
  | nil => rfl
  | append_singleton l a ih =>
    rw [pos_append, List.length_append, ih, List.count_append]
    by_cases h : a = nm <;> simp [h]

theorem mem_pos {l : List α} {nm : α} {i : ℕ} : i ∈ pos l nm ↔ l[i]? = some nm := by
  simp only [pos, List.mem_filter, List.mem_range, decide_eq_true_eq, and_iff_right_iff_imp]
  intro h
  exact (List.getElem?_eq_some_iff.1 h).1

theorem pos_nodup (l : List α) (nm : α) : (pos l nm).Nodup := (List.nodup_range).filter _

theorem dataIndices_eq (names : List α) (nm : α) : dataIndices names nm = pos names nm := by
  induction names using List.reverseRecOn with
  | nil => rfl
  | append_singleton l a ih =>
    have : dataIndices (l ++ [a]) = Function.update (dataIndices l) a (dataIndices l a ++ [l.length]) := by
      simp [dataIndices, List.zipIdx_append]
    rw [this, pos_append]
    by_cases h : nm = a
    · subst h; simp [ih]
    · rw [Function.update_of_ne h, ih]
      rw [if_neg (fun h' : a = nm => h h'.symm), List.append_nil]

/-- the position within its species that particle `i` asks for -/
def want (parts : List (FsPart α)) (i : ℕ) : ℕ :=
  match parts[i]? with
  | none => 0
  | some p => if p.index < 0 then
      ((parts.take i).filter fun q => q.name = p.name ∧ q.index < 0).length
    else p.index.toNat

/-- the data index particle `i` gets -/
def target (names : List α) (parts : List (FsPart α)) (i : ℕ) : Option ℕ :=
  parts[i]?.bind fun p => (pos names p.name)[want parts i]?

theorem loop_spec (names : List α) (parts : List (FsPart α)) :
    let r := parts.zipIdx.foldl (loopBody names) ⟨[], fun _ => 0, true⟩
    r.map = (List.range parts.length).filterMap (fun i => (target names parts i).map fun k => (i, k)) ∧
    (∀ nm, pos names nm ≠ [] → r.count nm = (parts.filter fun q => q.name = nm ∧ q.index < 0).length) ∧
    (r.success = true ↔ ∀ i < parts.length, (target names parts i).isSome) := by
  induction parts using List.reverseRecOn with
  | nil => simp
  | append_singleton ps p ih =>
    intro r
    obtain ⟨h1, h2, h3⟩ := ih
    have htake : ∀ i < ps.length, target names (ps ++ [p]) i = target names ps i := by
      intro i hi
      simp only [target, want, List.getElem?_append_left hi, List.take_append_of_le_length hi.le]
    have hlast : target names (ps ++ [p]) ps.length =
        (pos names p.name)[if p.index < 0 then
          (ps.filter fun q => q.name = p.name ∧ q.index < 0).length else p.index.toNat]? := by
      simp [target, want]
    set s := ps.zipIdx.foldl (loopBody names) ⟨[], fun _ => 0, true⟩ with hs
    have hr : r = loopBody names s (p, ps.length) := by
      simp [r, List.zipIdx_append, hs]
    have hmap0 : (List.range (ps ++ [p]).length).filterMap
          (fun i => (target names (ps ++ [p]) i).map fun k => (i, k)) =
        s.map ++ ((target names (ps ++ [p]) ps.length).map fun k => (ps.length, k)).toList := by
      rw [List.length_append, List.length_singleton, List.range_succ, List.filterMap_append, h1]
      have hA : (List.range ps.length).filterMap (fun i => (target names (ps ++ [p]) i).map fun k => (i, k)) =
          (List.range ps.length).filterMap (fun i => (target names ps i).map fun k => (i, k)) := by
        apply List.filterMap_congr
        intro i hi
        rw [htake i (List.mem_range.1 hi)]
      rw [hA]
      congr 1
    have hsucc0 : (∀ i < (ps ++ [p]).length, (target names (ps ++ [p]) i).isSome) ↔
        (s.success = true ∧ (target names (ps ++ [p]) ps.length).isSome) := by
      rw [h3]
      constructor
      · intro h
        exact ⟨fun i hi => htake i hi ▸ h i (by simp; omega), h _ (by simp)⟩
      · rintro ⟨ha, hb⟩ i hi
        simp only [List.length_append, List.length_singleton] at hi
        rcases Nat.lt_succ_iff_lt_or_eq.1 hi with hi | rfl
        · rw [htake i hi]; exact ha i hi
        · exact hb
    rw [hmap0, hsucc0, hr]
    unfold loopBody
    simp only [dataIndices_eq]
    by_cases hne : pos names p.name = []
    · have hnone : target names (ps ++ [p]) ps.length = none := by rw [hlast, hne]; simp
      simp only [hne, ne_eq, not_true, if_false, hnone]
      refine ⟨by simp, ?_, by simp⟩
      intro nm hnm
      have hnp : p.name ≠ nm := by rintro rfl; exact hnm hne
      simp [List.filter_append, h2 nm hnm, hnp]
    · simp only [ne_eq, hne, not_false_eq_true, if_true]
      have hcnt := h2 p.name hne
      have hidx : (if p.index < 0 then s.count p.name else p.index.toNat) =
          (if p.index < 0 then (ps.filter fun q => q.name = p.name ∧ q.index < 0).length
            else p.index.toNat) := by rw [hcnt]
      rw [hlast, hidx]
      by_cases hneg : p.index < 0
      · simp only [hneg, if_true]
        cases hg : (pos names p.name)[(ps.filter fun q => q.name = p.name ∧ q.index < 0).length]? with
        | none =>
          refine ⟨by simp, ?_, by simp⟩
          intro nm hnm
          by_cases hnp : nm = p.name
          · subst hnp; simp [List.filter_append, hcnt, hneg]
          · have hnp' : p.name ≠ nm := fun h => hnp h.symm
            simp [Function.update_of_ne hnp, List.filter_append, h2 nm hnm, hnp']
        | some k =>
          refine ⟨by simp, ?_, by simp⟩
          intro nm hnm
          by_cases hnp : nm = p.name
          · subst hnp; simp [List.filter_append, hcnt, hneg]
          · have hnp' : p.name ≠ nm := fun h => hnp h.symm
            simp [Function.update_of_ne hnp, List.filter_append, h2 nm hnm, hnp']
      · simp only [hneg, if_false]
        cases hg : (pos names p.name)[p.index.toNat]? with
        | none =>
          refine ⟨by simp, ?_, by simp⟩
          intro nm hnm
          simp [List.filter_append, h2 nm hnm, hneg]
        | some k =>
          refine ⟨by simp, ?_, by simp⟩
          intro nm hnm
          simp [List.filter_append, h2 nm hnm, hneg]

/-! ### valid indices -/

theorem want_lt_and_inj (parts : List (FsPart α)) (hv : checkIndices parts = true) :
    (∀ i (h : i < parts.length), want parts i < (parts.map FsPart.name).count parts[i].name) ∧
    (∀ i j (hi : i < parts.length) (hj : j < parts.length), parts[i].name = parts[j].name →
      want parts i = want parts j → i = j) := by
  have hcount : ∀ nm, (parts.map FsPart.name).count nm = (parts.filter fun q => q.name = nm).length := by
    intro nm
    rw [List.count_eq_countP, List.countP_map, List.countP_eq_length_filter]
    congr 1
  unfold checkIndices at hv
  split at hv
  · rename_i hall
    have hneg : ∀ p ∈ parts, p.index < 0 := by simpa using hall
    have hw : ∀ i (h : i < parts.length), want parts i =
        ((parts.take i).filter fun q => q.name = parts[i].name).length := by
      intro i h
      simp only [want, List.getElem?_eq_getElem h, hneg _ (List.getElem_mem h), if_true]
      congr 1
      apply List.filter_congr
      intro q hq
      have := hneg q (List.mem_of_mem_take hq)
      simp [this]
    have hstep : ∀ i j (hi : i < parts.length), i < j →
        ((parts.take i).filter fun q => q.name = parts[i].name).length <
        ((parts.take j).filter fun q => q.name = parts[i].name).length := by
      intro i j hi hij
      have h1 : (parts.take (i+1)).filter (fun q => q.name = parts[i].name) =
          (parts.take i).filter (fun q => q.name = parts[i].name) ++ [parts[i]] := by
        rw [List.take_succ_eq_append_getElem hi, List.filter_append]; simp
      have h2 : ((parts.take (i+1)).filter (fun q => q.name = parts[i].name)).length ≤
          ((parts.take j).filter (fun q => q.name = parts[i].name)).length :=
        (((List.take_sublist_take_left (by omega))).filter _).length_le
      rw [h1] at h2
      simp at h2 ⊢
      omega
    refine ⟨fun i h => ?_, fun i j hi hj hn hij => ?_⟩
    · rw [hw i h, hcount]
      have := hstep i parts.length h h
      rwa [List.take_length] at this
    · rw [hw i hi, hw j hj] at hij
      rcases lt_trichotomy i j with h | h | h
      · have := hstep i j hi h
        rw [hij, hn] at this; omega
      · exact h
      · have := hstep j i hj h
        rw [← hij, hn] at this; omega
  · rename_i hnall
    rw [List.all_eq_true] at hv
    have hperm : ∀ i (h : i < parts.length),
        ((parts.filter fun p => p.name = parts[i].name).map FsPart.index).Perm
        ((List.range (parts.filter fun p => p.name = parts[i].name).length).map Int.ofNat) := by
      intro i h
      have := hv parts[i].name (List.mem_map_of_mem (List.getElem_mem h))
      simp only [decide_eq_true_eq] at this
      rw [← this]
      exact (List.perm_insertionSort _ _).symm
    have hnn : ∀ i (h : i < parts.length), 0 ≤ parts[i].index ∧
        parts[i].index < ((parts.filter fun p => p.name = parts[i].name).length : ℤ) := by
      intro i h
      have hm : parts[i].index ∈ (parts.filter fun p => p.name = parts[i].name).map FsPart.index :=
        List.mem_map_of_mem (List.mem_filter.2 ⟨List.getElem_mem h, by simp⟩)
      have := (hperm i h).subset hm
      simp only [List.mem_map, List.mem_range] at this
      obtain ⟨j, hj, hj'⟩ := this
      have hj'' : (j : ℤ) = parts[i].index := hj'
      omega
    have hw : ∀ i (h : i < parts.length), want parts i = parts[i].index.toNat := by
      intro i h
      have := (hnn i h).1
      simp [want, List.getElem?_eq_getElem h, not_lt.2 this]
    refine ⟨fun i h => ?_, fun i j hi hj hn hij => ?_⟩
    · rw [hw i h, hcount]
      have := hnn i h
      omega
    · rw [hw i hi, hw j hj] at hij
      have hii := hnn i hi
      have hjj := hnn j hj
      have heq : parts[i].index = parts[j].index := by omega
      by_contra hne
      -- two entries with equal index contradict nodup
      have hnd : ((parts.filter fun p => p.name = parts[i].name).map FsPart.index).Nodup :=
        (hperm i hi).nodup_iff.2 (List.nodup_range.map (fun a b h => Int.ofNat.inj h))
      have key : ∀ a b (ha : a < parts.length) (hb : b < parts.length), a < b →
          parts[a].name = parts[i].name → parts[b].name = parts[i].name →
          parts[a].index = parts[b].index → False := by
        intro a b ha hb hab h1 h2 h3
        have hsub : [parts[a], parts[b]].Sublist parts := by
          have hp : (fun x y : ℕ => x < y) a b := hab
          have := List.map_getElem_sublist (l := parts) (is := [⟨a, ha⟩, ⟨b, hb⟩]) (by simpa using hab)
          simpa using this
        have hsub2 := (hsub.filter (fun p => decide (p.name = parts[i].name))).map FsPart.index
        have := hsub2.nodup hnd
        simp [h1, h2, h3] at this
      rcases lt_or_gt_of_ne hne with h | h
      · exact key i j hi hj h rfl hn.symm heq
      · exact key j i hj hi h hn.symm rfl heq.symm

end

end Rpwa.EventMomenta
