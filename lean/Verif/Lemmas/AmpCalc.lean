import Verif.Spec.AmpCalc
import Verif.Props.EventMomenta
import Verif.Props.Storage
/-! # Lemmas for C92 -/
namespace Rpwa.AmpCalc

open Rpwa.Storage Rpwa.EventMomenta

/-- the momenta of the particles for the momenta of an event. -/
def arranged (n : ℕ) (σ : ℕ → ℕ) (moms : List Vec3) : List Vec3 := (List.range n).filterMap fun j => moms[σ j]?

theorem arranged_get {n : ℕ} {σ : ℕ → ℕ} {moms : List Vec3} (h : ∀ j < n, σ j < moms.length) :
    (arranged n σ moms).length = n ∧ ∀ j < n, (arranged n σ moms)[j]? = moms[σ j]? := by
  have h1 : arranged n σ moms = (List.range n).map fun j => (moms[σ j]?).getD ⟨.zero, .zero, .zero⟩ := by
    unfold arranged
    rw [← List.filterMap_eq_map]
    refine List.filterMap_congr fun j hj => ?_
    simp only [Function.comp]
    rw [List.getElem?_eq_getElem (h j (List.mem_range.1 hj))]
    rfl
  rw [h1]
  refine ⟨by simp, fun j hj => ?_⟩
  rw [List.getElem?_map, List.getElem?_range hj, Option.map_some, List.getElem?_eq_getElem (h j hj)]
  rfl

/-- reading an event: it succeeds iff the production vertex is content and the number of momenta is right. -/
theorem read_row (t : Topo String Vec3) (ok : Bool) (moms : List Vec3) (h : ∀ j < t.parts.length, lookupIdx t j < t.parts.length) :
    ((readKinematicsData t ok moms).1 = true ↔ ok = true ∧ moms.length = t.parts.length) ∧
    (readKinematicsData t ok moms).2.parts = t.parts ∧ (readKinematicsData t ok moms).2.indexMap = t.indexMap ∧
    ((readKinematicsData t ok moms).1 = true → (readKinematicsData t ok moms).2.momenta = arranged t.parts.length (lookupIdx t) moms) := by
  unfold readKinematicsData
  by_cases hc : (!ok || decide (moms.length ≠ t.parts.length)) = true
  · rw [if_pos hc]
    refine ⟨?_, rfl, rfl, fun h => by cases h⟩
    constructor
    · intro h; cases h
    · rintro ⟨rfl, h2⟩; simp [h2] at hc
  · rw [if_neg hc]
    have hc' : ok = true ∧ moms.length = t.parts.length := by simpa using hc
    have hlt : ∀ j < t.parts.length, lookupIdx t j < moms.length := fun j hj => by rw [hc'.2]; exact h j hj
    refine ⟨?_, rfl, rfl, fun _ => ?_⟩
    · refine ⟨fun _ => hc', fun _ => ?_⟩
      dsimp only
      rw [List.all_eq_true]
      intro i hi
      rw [List.getElem?_eq_getElem (hlt i (List.mem_range.1 hi))]
      rfl
    · unfold arranged
      dsimp only
      refine List.filterMap_congr fun i hi => ?_
      rw [List.getElem?_eq_getElem (hlt i (List.mem_range.1 hi))]

/-- the loop over the events. -/
theorem calcLoop_spec (a : Amplitude) : ∀ (rows : List Row) (t : Topo String Vec3) (acc : List (Dbl × Dbl)),
    (∀ j < t.parts.length, lookupIdx t j < t.parts.length) →
    ((∀ row ∈ rows, a.prodRead row.prod = true ∧ row.decay.length = t.parts.length) →
      calcLoop a t rows acc = acc ++ rows.map fun row => a.value row.prod (arranged t.parts.length (lookupIdx t) row.decay)) ∧
    (¬ (∀ row ∈ rows, a.prodRead row.prod = true ∧ row.decay.length = t.parts.length) → calcLoop a t rows acc = [])
  | [], t, acc, _ => ⟨fun _ => by unfold calcLoop; simp, fun h => absurd (by simp) h⟩
  | row :: rows, t, acc, h => by
    obtain ⟨h1, h2, h3, h4⟩ := read_row t (a.prodRead row.prod) row.decay h
    have hl : lookupIdx (readKinematicsData t (a.prodRead row.prod) row.decay).2 = lookupIdx t := by
      funext j; unfold lookupIdx; rw [h3]
    obtain ⟨h5, h6⟩ := calcLoop_spec a rows (readKinematicsData t (a.prodRead row.prod) row.decay).2
      (acc ++ [a.value row.prod (readKinematicsData t (a.prodRead row.prod) row.decay).2.momenta]) (by rw [h2, hl]; exact h)
    rw [h2] at h5 h6
    unfold calcLoop
    dsimp only
    by_cases hr : (readKinematicsData t (a.prodRead row.prod) row.decay).1 = true
    · rw [if_pos hr]
      have hrow := h1.1 hr
      constructor
      · intro hall
        rw [h5 fun x hx => hall x (List.mem_cons_of_mem _ hx), h4 hr, hl]
        simp
      · intro hn
        refine h6 fun hall => hn fun x hx => ?_
        rcases List.mem_cons.1 hx with rfl | hx
        · exact hrow
        · exact hall x hx
    · rw [if_neg hr]
      exact ⟨fun hall => absurd (h1.2 (hall row List.mem_cons_self)) hr, fun _ => rfl⟩

/-- how many events are used. -/
def nmbUsed (maxNmbEvents : ℤ) (n : ℕ) : ℕ := if maxNmbEvents > 0 then min maxNmbEvents.toNat n else n

/-- the amplitudes are those of the events if the events can be read, and none otherwise. -/
theorem calcAmplitudes_spec (a : Amplitude) (hv : checkIndices a.topo.parts = true) (em : EventMeta) (tree : Tree)
    (ht : em.tree = some tree) (maxNmb : ℤ) :
    (Readable a em (tree.rows.take (nmbUsed maxNmb tree.rows.length)) →
      AmplitudesOf a em.decayNames (tree.rows.take (nmbUsed maxNmb tree.rows.length)) (calcAmplitudes (some a) em maxNmb)) ∧
    (¬ Readable a em (tree.rows.take (nmbUsed maxNmb tree.rows.length)) → calcAmplitudes (some a) em maxNmb = []) := by
  have hrun : calcAmplitudes (some a) em maxNmb = if !(initKinematicsData a.topo (a.prodInit em.prodNames) em.decayNames).1 then [] else
      calcLoop a (initKinematicsData a.topo (a.prodInit em.prodNames) em.decayNames).2 (tree.rows.take (nmbUsed maxNmb tree.rows.length)) [] := by
    unfold calcAmplitudes nmbUsed; dsimp only; rw [ht]
  rw [hrun]
  generalize tree.rows.take (nmbUsed maxNmb tree.rows.length) = rows
  by_cases hp : a.prodInit em.prodNames = true
  · rw [hp]
    have hi := init_succeeds_iff a.topo em.decayNames hv
    by_cases hs : (initKinematicsData a.topo true em.decayNames).1 = true
    · rw [if_neg (by simp [hs])]
      obtain ⟨hperm, hnames⟩ := index_map_bijective a.topo em.decayNames hv hs
      obtain ⟨-, hlen, hparts⟩ := init_indexMap a.topo em.decayNames hs
      have hlt : ∀ j < a.topo.parts.length, lookupIdx (initKinematicsData a.topo true em.decayNames).2 j < a.topo.parts.length := by
        intro j hj
        exact List.mem_range.1 (hperm.mem_iff.1 (List.mem_map_of_mem (List.mem_range.2 hj)))
      obtain ⟨h1, h2⟩ := calcLoop_spec a rows (initKinematicsData a.topo true em.decayNames).2 [] (by rw [hparts]; exact hlt)
      rw [hparts] at h1 h2
      constructor
      · intro hR
        rw [h1 fun row hrow => ⟨(hR.events row hrow).1, (hR.events row hrow).2.trans hlen⟩, List.nil_append]
        refine ⟨lookupIdx (initKinematicsData a.topo true em.decayNames).2, ⟨by rw [hlen]; exact hperm, ?_⟩, by simp, ?_⟩
        · intro i p hip
          obtain ⟨hi', rfl⟩ := List.getElem?_eq_some_iff.1 hip
          exact hnames i hi'
        · intro i row hrow
          have hm := List.mem_of_getElem? hrow
          obtain ⟨h3, h4⟩ := arranged_get (n := a.topo.parts.length) (moms := row.decay)
            (σ := lookupIdx (initKinematicsData a.topo true em.decayNames).2)
            fun j hj => by rw [(hR.events row hm).2, hlen]; exact hlt j hj
          exact ⟨_, h3, h4, by rw [List.getElem?_map, hrow]; rfl⟩
      · intro hR
        refine h2 fun hall => hR ⟨hp, hi.1 hs, fun row hrow => ⟨(hall row hrow).1, (hall row hrow).2.trans hlen.symm⟩⟩
    · rw [if_pos (by simp [hs])]
      exact ⟨fun hR => absurd (hi.2 hR.decayNames) hs, fun _ => rfl⟩
  · have hf : (initKinematicsData a.topo (a.prodInit em.prodNames) em.decayNames).1 = false := by
      unfold initKinematicsData
      rw [if_pos (by simp [hp])]
    rw [if_pos (by simp [hf])]
    exact ⟨fun hR => absurd hR.prodNames hp, fun _ => rfl⟩

/-- the metadata of the file that is written. -/
def written (w : World) (t : Task) (em : EventMeta) (amps : List (Dbl × Dbl)) : AmpMeta :=
  ⟨w.md5 (amps.foldl updComplex (updString (updString [] em.contentHash) t.wave.keyFile)), [em], t.wave.keyFile, w.git, t.wave.name, some amps⟩

theorem addAmplitudes_eq : ∀ (amps : List (Dbl × Dbl)) (x : AmpWriter) (as₀ : List (Dbl × Dbl)), x.initialized = true →
    x.meta_.tree = some as₀ →
    x.addAmplitudes amps = { x with hashor := amps.foldl updComplex x.hashor, meta_ := { x.meta_ with tree := some (as₀ ++ amps) } }
  | [], x, as₀, _, h => by
    obtain ⟨i, m, hs⟩ := x
    unfold AmpWriter.addAmplitudes
    simp only [List.foldl_nil, List.append_nil, ← h]
  | a :: amps, x, as₀, hi, h => by
    have h1 : x.addAmplitude a = { x with hashor := updComplex x.hashor a, meta_ := { x.meta_ with tree := some (as₀ ++ [a]) } } := by
      unfold AmpWriter.addAmplitude
      rw [if_neg (by simp [hi]), h]
      rfl
    have h2 := addAmplitudes_eq amps (x.addAmplitude a) (as₀ ++ [a]) (by rw [h1]; exact hi) (by rw [h1])
    show AmpWriter.addAmplitudes (x.addAmplitude a) amps = _
    rw [h2, h1]
    simp

theorem finalize_eq (w : World) (t : Task) (em : EventMeta) (amps : List (Dbl × Dbl)) :
    (((AmpWriter.new.initialize [em] t.wave.keyFile t.wave.name w.git).2.addAmplitudes amps).finalize w.md5).1 = some (written w t em amps) := by
  rw [addAmplitudes_eq amps _ [] rfl rfl]
  rfl

theorem written_hash (w : World) (t : Task) (em : EventMeta) (amps : List (Dbl × Dbl)) :
    (written w t em amps).contentHash = (written w t em amps).recalculateHash w.md5 := rfl

/-- the states of the disk while the tree is written. -/
def savedStates (d : Disk) (t : Task) (amps : List (Dbl × Dbl)) : List Disk :=
  (List.range (amps.length + 1)).map fun k => put d t (some (amps.take k)) none

/-- the three courses of a calculation. -/
theorem calc_cases (w : World) (d : Disk) (t : Task) (hv : t.wave.Valid) :
    ((w.rootpwa = false ∨ w.events t.input = none ∨ d t.out ≠ none) ∧ calcAmplitude w d t = (false, [d])) ∨
    (w.rootpwa = true ∧ (∃ em, w.events t.input = some em) ∧ d t.out = none ∧ ¬ Possible w t ∧ calcAmplitude w d t = (false, [d, put d t none none])) ∨
    (d t.out = none ∧ Possible w t ∧ ∃ em tree a amps, w.events t.input = some em ∧ em.tree = some tree ∧ t.wave.amplitude = some a ∧
      AmplitudesOf a em.decayNames tree.rows amps ∧
      calcAmplitude w d t = (true, [d, put d t none none] ++ savedStates d t amps ++ [put d t (some amps) (some (written w t em amps))])) := by
  by_cases h0 : w.rootpwa = true
  · cases h1 : w.events t.input with
    | none =>
      left
      refine ⟨.inr (.inl rfl), ?_⟩
      unfold calcAmplitude
      rw [if_neg (by simp [h0]), h1]
    | some em =>
      cases h2 : d t.out with
      | some f =>
        left
        refine ⟨.inr (.inr (by simp)), ?_⟩
        unfold calcAmplitude
        rw [if_neg (by simp [h0]), h1]
        dsimp only
        rw [h2]
      | none =>
        right
        cases h3 : t.wave.amplitude with
        | none =>
          left
          refine ⟨h0, ⟨em, rfl⟩, rfl, ?_, ?_⟩
          · rintro ⟨-, _, _, _, -, -, h4, -⟩
            rw [h3] at h4; cases h4
          · unfold calcAmplitude
            rw [if_neg (by simp [h0]), h1]
            dsimp only
            rw [h2]
            dsimp only
            rw [if_pos (by rw [h3]; rfl)]
        | some a =>
          have hvalid := hv a h3
          -- the rest of the function
          have hrun : calcAmplitude w d t = if calcAmplitudes (some a) em (-1) = [] then (false, [d, put d t none none])
              else if (em.tree.map fun x => x.rows.length) ≠ some (calcAmplitudes (some a) em (-1)).length then (false, [d, put d t none none])
              else (true, [d, put d t none none] ++ savedStates d t (calcAmplitudes (some a) em (-1)) ++
                [put d t (some (calcAmplitudes (some a) em (-1))) (some (written w t em (calcAmplitudes (some a) em (-1))))]) := by
            unfold calcAmplitude
            rw [if_neg (by simp [h0]), h1]
            dsimp only
            rw [h2]
            dsimp only
            rw [if_neg (by rw [h3]; simp), if_neg (by simp [AmpWriter.initialize, AmpWriter.new]), h3]
            congr 1
            congr 1
            rw [finalize_eq]
            rfl
          cases h4 : em.tree with
          | none =>
            left
            refine ⟨h0, ⟨em, rfl⟩, rfl, ?_, ?_⟩
            · rintro ⟨-, em', tree, _, h5, h6, -⟩
              rw [h1] at h5; cases h5; rw [h4] at h6; cases h6
            · rw [hrun, if_pos]
              unfold calcAmplitudes; dsimp only; rw [h4]
          | some tree =>
            have hn : nmbUsed (-1) tree.rows.length = tree.rows.length := rfl
            obtain ⟨h5, h6⟩ := calcAmplitudes_spec a hvalid em tree h4 (-1)
            rw [hn, List.take_length] at h5 h6
            by_cases hR : Readable a em tree.rows
            · have h7 := h5 hR
              by_cases hne : tree.rows = []
              · left
                refine ⟨h0, ⟨em, rfl⟩, rfl, ?_, ?_⟩
                · rintro ⟨-, em', tree', _, h8, h9, -, h10, -⟩
                  rw [h1] at h8; cases h8; rw [h4] at h9; cases h9; exact h10 hne
                · rw [hrun, if_pos]
                  obtain ⟨_, -, h8, -⟩ := h7
                  rw [hne] at h8
                  exact List.length_eq_zero_iff.1 h8
              · right
                refine ⟨rfl, ⟨h0, em, tree, a, h1, h4, h3, hne, hR⟩, em, tree, a, calcAmplitudes (some a) em (-1), rfl, h4, rfl, h7, ?_⟩
                have hlen : (calcAmplitudes (some a) em (-1)).length = tree.rows.length := h7.choose_spec.2.1
                rw [hrun, if_neg, if_neg]
                · rw [h4, hlen]; simp
                · intro h8
                  rw [h8] at hlen
                  exact hne (List.length_eq_zero_iff.1 hlen.symm)
            · left
              refine ⟨h0, ⟨em, rfl⟩, rfl, ?_, ?_⟩
              · rintro ⟨-, em', tree', a', h8, h9, h10, -, h11⟩
                rw [h1] at h8; cases h8; rw [h4] at h9; cases h9; rw [h3] at h10; cases h10; exact hR h11
              · rw [hrun, if_pos (h6 hR)]
  · left
    have h0' : w.rootpwa = false := by simpa using h0
    refine ⟨.inl h0', ?_⟩
    unfold calcAmplitude
    rw [if_pos (by simp [h0'])]

end Rpwa.AmpCalc
