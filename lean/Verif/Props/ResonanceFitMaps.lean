import Verif.Lemmas.ResFitMaps

/-!
# C43: a component has at most one decay channel per wave and bin
-/

namespace Rpwa.ResFit

theorem mapStep_names {branch : Bool} {st st' : MapSt} {n : ℕ} {name : Name} {bins : List ℕ}
    (h : mapStep branch st n name bins = some st') :
    st'.names = st.names ++ bins.map (fun b => (b, name)) ∧ ∀ b ∈ bins, (b, name) ∉ st.names := by
  unfold mapStep at h
  by_cases hb : bins.any (fun b => decide ((b, name) ∈ st.names))
  · rw [if_pos hb] at h; cases h
  rw [if_neg hb] at h
  dsimp only at h
  obtain ⟨r, _, h⟩ := Option.bind_eq_some_iff.mp h
  unfold pushChannel at h
  split at h
  · cases h
  cases h
  refine ⟨rfl, fun b hm hc => hb (List.any_eq_true.mpr ⟨b, hm, decide_eq_true hc⟩)⟩

/-- **C43**: two decay channels of a component that is constructed, with the same wave, have no bin in
common -/
theorem maps_no_duplicates {ub : Bool} {chans : List (Name × List ℕ)} {m : Maps}
    (h : mkMaps ub chans = some m) {i j : ℕ} (hij : i < j) (hj : j < chans.length)
    (hn : chans[i].1 = chans[j].1) {b : ℕ} (hb : b ∈ chans[i].2) : b ∉ chans[j].2 := by
  unfold mkMaps at h
  dsimp only at h
  obtain ⟨st, h, _⟩ := Option.map_eq_some_iff.mp h
  have inv := foldlM_zipIdx_inv
    (fun n st => (∀ k (hk : k < chans.length), k < n → ∀ b ∈ chans[k].2, (b, chans[k].1) ∈ st.names) ∧
      ∀ i j (hj : j < chans.length) (hij : i < j), j < n → chans[i].1 = chans[j].1 → ∀ b ∈ chans[i].2, b ∉ chans[j].2)
    _ chans (fun n hn a a' ha he => by
      obtain ⟨e1, e2⟩ := mapStep_names he
      refine ⟨?_, ?_⟩
      · intro k hk hkn b hb
        rw [e1]
        rcases Nat.lt_succ_iff_lt_or_eq.mp hkn with hkn | rfl
        · exact List.mem_append_left _ (ha.1 k hk hkn b hb)
        · exact List.mem_append_right _ (List.mem_map.mpr ⟨b, hb, rfl⟩)
      · intro i j hj hij hjn hnm b hb hb'
        rcases Nat.lt_succ_iff_lt_or_eq.mp hjn with hjn | rfl
        · exact ha.2 i j hj hij hjn hnm b hb hb'
        · exact e2 b hb' (hnm ▸ ha.1 i (by omega) hij b hb)) _ st
    ⟨fun k _ hk => absurd hk (Nat.not_lt_zero k), fun i j _ _ hj => absurd hj (Nat.not_lt_zero j)⟩ h
  exact inv.2 i j hj hij hj hn b hb

/-- channels of one wave in different bins are allowed, in the same bin they are not -/
theorem Ex.no_duplicates : (mkMaps false [(['a'], [0, 1]), (['b'], [0]), (['a'], [2])]).isSome = true ∧
    mkMaps false [(['a'], [0, 1]), (['b'], [0]), (['a'], [1])] = none := ⟨by decide, by decide⟩

end Rpwa.ResFit
