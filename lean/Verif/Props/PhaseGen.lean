import Verif.Spec.PhaseGen
import Verif.Props.Deweight
/-! # C97: phase-space Monte Carlo files -/
namespace Rpwa.PhaseGen

open Rpwa.Storage
open Rpwa.Deweight (addEvent_ok extend extend_nil extend_cons)

theorem total_zero (made : List Made) : total made 0 = 0 := rfl

theorem total_cons (m : Made) (ms : List Made) (k : ℕ) : total (m :: ms) (k + 1) = m.attempts + total ms k := by
  unfold total
  rw [List.take_succ_cons, List.map_cons, List.sum_cons]

theorem total_mono (made : List Made) : ∀ {i j : ℕ}, i ≤ j → total made i ≤ total made j := by
  induction made with
  | nil => intro i j _; simp [total]
  | cons m ms ih =>
    intro i j h
    cases i with
    | zero => rw [total_zero]; exact Nat.zero_le _
    | succ i =>
      cases j with
      | zero => omega
      | succ j =>
        rw [total_cons, total_cons]
        have := ih (i := i) (j := j) (by omega)
        omega

theorem loop_spec (o : Opts) : ∀ (made : List Made) (w : EventWriter) (t : Tree) (a n : ℕ), w.initialized = true → w.meta_.tree = some t →
    (∀ m ∈ made, 1 = w.nProd ∧ m.final.length = w.nDecay ∧ (row o m).vals.length = w.nAdd) →
    ∃ k, k ≤ made.length ∧ (0 < k → ((n + k : ℕ) : ℤ) ≤ o.nEvents) ∧ (o.limit ≠ 0 → 0 < k → ((a + total made k : ℕ) : ℤ) ≤ o.limit) ∧
      ((¬ ((n + k : ℕ) : ℤ) < o.nEvents ∧ loop o w a n made = .ok ⟨extend w t ((made.take k).map (row o)), a + total made k, n + k, true⟩) ∨
        (k < made.length ∧ ((n + k : ℕ) : ℤ) < o.nEvents ∧ o.limit ≠ 0 ∧ o.limit < ((a + total made (k + 1) : ℕ) : ℤ) ∧
          loop o w a n made = .ok ⟨extend w t ((made.take k).map (row o)), a + total made (k + 1), n + k, true⟩) ∨
        (k = made.length ∧ ((n + k : ℕ) : ℤ) < o.nEvents ∧
          loop o w a n made = .ok ⟨extend w t ((made.take k).map (row o)), a + total made k, n + k, false⟩)) := by
  intro made
  induction made with
  | nil =>
    intro w t a n hi ht _
    refine ⟨0, by simp, by simp, by simp, ?_⟩
    have h : loop o w a n [] = .ok ⟨w, a, n, decide (¬ (n : ℤ) < o.nEvents)⟩ := by unfold loop; rfl
    rw [h, List.take_nil, List.map_nil, extend_nil ht, total_zero]
    by_cases hn : (n : ℤ) < o.nEvents
    · right; right
      exact ⟨rfl, by simpa using hn, by simp [hn]⟩
    · left
      exact ⟨by simpa using hn, by simp [hn]⟩
  | cons m ms ih =>
    intro w t a n hi ht hs
    by_cases hn : (n : ℤ) < o.nEvents
    · by_cases hl : o.limit ≠ 0 ∧ o.limit < (a + m.attempts : ℤ)
      · refine ⟨0, by simp, by simp, by simp, ?_⟩
        right; left
        refine ⟨by simp, by simpa using hn, hl.1, by rw [total_cons, total_zero]; push_cast; simpa using hl.2, ?_⟩
        unfold loop
        rw [if_neg (not_not.2 hn), if_pos hl, List.take_zero, List.map_nil, extend_nil ht, total_cons, total_zero]
        rfl
      · have hrow := addEvent_ok hi ht (row o m) (hs m List.mem_cons_self)
        obtain ⟨k, h1, h2, h3, h4⟩ := ih { w with hashor := w.hashor ++ eventBytes (row o m), meta_ := { w.meta_ with tree := some { t with rows := t.rows ++ [row o m] } } }
          { t with rows := t.rows ++ [row o m] } (a + m.attempts) (n + 1) hi rfl (fun x hx => hs x (List.mem_cons_of_mem _ hx))
        have hstep : loop o w a n (m :: ms) = loop o { w with hashor := w.hashor ++ eventBytes (row o m), meta_ := { w.meta_ with tree := some { t with rows := t.rows ++ [row o m] } } }
            (a + m.attempts) (n + 1) ms := by
          conv_lhs => unfold loop
          rw [if_neg (not_not.2 hn), if_neg hl]
          show (w.addEvent (row o m).prod (row o m).decay (row o m).vals >>= _) = _
          rw [hrow]
          rfl
        have e1 : a + m.attempts + total ms k = a + total (m :: ms) (k + 1) := by rw [total_cons]; omega
        have e2 : a + m.attempts + total ms (k + 1) = a + total (m :: ms) (k + 1 + 1) := by rw [total_cons]; omega
        have e3 : n + 1 + k = n + (k + 1) := by omega
        rw [extend_cons, e1, e2, e3, ← hstep] at h4
        rw [e1] at h3
        rw [e3] at h2
        refine ⟨k + 1, by simpa using h1, fun _ => ?_, fun hz _ => ?_, ?_⟩
        · rcases Nat.eq_zero_or_pos k with rfl | hk
          · push_cast; omega
          · exact h2 hk
        · rcases Nat.eq_zero_or_pos k with rfl | hk
          · rw [total_cons, total_zero]
            push_cast
            have : ¬ o.limit < (a + m.attempts : ℤ) := fun h => hl ⟨hz, h⟩
            omega
          · exact h3 hz hk
        · rw [List.take_succ_cons, List.map_cons]
          rcases h4 with h | h | h
          · exact Or.inl h
          · exact Or.inr (Or.inl ⟨by simpa using h.1, h.2⟩)
          · exact Or.inr (Or.inr ⟨by simpa using h.1, h.2⟩)
    · refine ⟨0, by simp, by simp, by simp, Or.inl ⟨by simpa using hn, ?_⟩⟩
      unfold loop
      rw [if_pos hn, List.take_zero, List.map_nil, extend_nil ht, total_zero]
      rfl

theorem finalize_made (md5 : Hashor → String) (a : InitArgs) (evs : List Row) (o : Opts)
    (hl : ∀ r ∈ evs, r.vals.length = a.addNames.length) (h1 : a.auxString = o.aux) (h2 : a.eventsType = .generated) (h3 : a.prodNames = [o.beamName])
    (h4 : a.decayNames = o.finalNames) :
    ∃ m, ((extend (EventWriter.new.initialize a).2 ⟨a.addNames, []⟩ evs).finalize md5).1 = some m ∧ FileOf md5 m o a.addNames a.bounds evs := by
  refine ⟨_, rfl, h1, h2, h3, h4, rfl, rfl, fun _ => rfl, rfl, fun hg => ?_⟩
  rw [recalculateHash_spec md5 (t := ⟨a.addNames, evs⟩) ⟨rfl, rfl, hl⟩ hg]
  rfl

theorem variables_length {o : Opts} {names : List String} {bounds : Bounds} (h : o.variables = some (names, bounds)) (m : Made) :
    (row o m).vals.length = names.length := by
  unfold Opts.variables at h
  unfold row
  by_cases hn : o.noStore = true
  · rw [if_pos hn] at h
    rw [if_pos hn]
    cases h
    rfl
  · rw [if_neg hn] at h
    rw [if_neg hn]
    split at h
    · cases h; rfl
    · cases h

/-- **C97.** The number of stored events is unique. -/
theorem count_unique {o : Opts} {made : List Made} {k k' : ℕ} (h : IsCount o made k) (h' : IsCount o made k') : k = k' := by
  have key : ∀ {k k' : ℕ}, IsCount o made k → IsCount o made k' → ¬ k < k' := by
    intro k k' h h' hlt
    have h1 := h'.le
    have h2 := h'.asked
    obtain ⟨h3, h4⟩ := h.most (by omega) (by omega)
    have h5 := h'.fits h3 (by omega)
    have := total_mono made (i := k + 1) (j := k') hlt
    omega
  have := key h h'
  have := key h' h
  omega

/-- **C97.** The file of `generatePhaseSpace`, in all cases, also if the script is interrupted: a valid event file of type generated with the particles of the
generator, the limits of mass and t' under their names, and the first events in order: as many as were asked for, fewer only if there were fewer
(interruption) or the number of attempts does not suffice. -/
theorem script_file (md5 : Hashor → String) (o : Opts) (made : List Made) {names : List String} {bounds : Bounds} (hv : o.variables = some (names, bounds))
    (hs : SameShape o made) : ∃ m k, IsCount o made k ∧ script md5 o made = .ok (some m, endOf o made k) ∧
      FileOf md5 m o names bounds ((made.take k).map (row o)) := by
  obtain ⟨k, h1, h2, h3, h4⟩ := loop_spec o made (EventWriter.new.initialize ⟨o.aux, .generated, [o.beamName], o.finalNames, bounds, names⟩).2
    ⟨names, []⟩ 0 0 rfl rfl (fun m hm => ⟨rfl, hs m hm, variables_length hv m⟩)
  obtain ⟨m, g1, g2⟩ := finalize_made md5 ⟨o.aux, .generated, [o.beamName], o.finalNames, bounds, names⟩ ((made.take k).map (row o)) o (by
    intro r hr
    obtain ⟨x, -, rfl⟩ := List.mem_map.1 hr
    exact variables_length hv x) rfl rfl rfl rfl
  simp only [Nat.zero_add] at h2 h3 h4
  refine ⟨m, k, ⟨h1, ?_, h3, fun p q => ?_⟩, ?_, g2⟩
  · rcases Nat.eq_zero_or_pos k with rfl | hk
    · simp
    · exact le_trans (h2 hk) (le_max_left _ _)
  · rcases h4 with h | h | h
    · exact absurd q h.1
    · exact ⟨h.2.2.1, h.2.2.2.1⟩
    · omega
  · have hscript : ∀ l, loop o (EventWriter.new.initialize ⟨o.aux, .generated, [o.beamName], o.finalNames, bounds, names⟩).2 0 0 made = .ok l →
        script md5 o made = .ok ((l.writer.finalize md5).1, if !l.stopped then .interrupted else if l.attempts = 0 then .zeroDivision
          else .done l.events l.attempts ((l.events : ℚ) / l.attempts)) := by
      intro l hl
      unfold script
      rw [hv]
      dsimp only
      rw [if_neg (by simp [EventWriter.initialize, EventWriter.new]), hl]
      rfl
    unfold endOf report
    rcases h4 with ⟨p, q⟩ | ⟨p, q, -, -, r⟩ | ⟨p, q, r⟩
    · rw [hscript _ q, g1, if_neg p]
      rfl
    · rw [hscript _ r, g1, if_pos q, if_neg (show ¬ k = made.length by omega)]
      rfl
    · rw [hscript _ r, g1, if_pos q, if_pos p]
      rfl

/-- **C97.** With a wrong list of variable names the output file remains without metadata: no event file. -/
theorem wrong_names (md5 : Hashor → String) (o : Opts) (made : List Made) (h : o.noStore = false) (hn : o.varNames.length ≠ 2) :
    script md5 o made = .ok (none, .exit) := by
  have hv : o.variables = none := by
    unfold Opts.variables
    rw [if_neg (by simp [h])]
    split
    · rename_i h'; rw [h'] at hn; simp at hn
    · rfl
  unfold script
  rw [hv]
  rfl

/-- **C97.** The limits in the metadata: those of the mass under the first name and of t' under the second; none if they are not stored. -/
theorem limits_spec (o : Opts) : (o.noStore = true → o.variables = some ([], fun _ => none)) ∧
    (∀ a b, o.noStore = false → o.varNames = [a, b] → a ≠ b → ∃ bounds, o.variables = some ([a, b], bounds) ∧ bounds a = some o.massRange ∧
      bounds b = some o.tPrimeRange ∧ ∀ v, v ≠ a → v ≠ b → bounds v = none) := by
  refine ⟨fun h => by unfold Opts.variables; rw [if_pos h], fun a b h hn hab => ?_⟩
  refine ⟨_, by unfold Opts.variables; rw [if_neg (by simp [h]), hn], ?_, ?_, fun v h1 h2 => ?_⟩
  · rw [if_neg hab, if_pos rfl]
  · rw [if_pos rfl]
  · rw [if_neg h2, if_neg h1]

/-- **C97.** A limit on the attempts that is less than the number of events is ignored. -/
theorem limit_ignored (o : Opts) (h : o.maxAttempts < o.nEvents) : o.limit = 0 := by
  unfold Opts.limit
  by_cases h0 : o.maxAttempts = 0
  · rw [if_neg (by simp [h0]), h0]
  · rw [if_pos ⟨h0, h⟩]

/-- **C97.** Without events to generate the script fails after the file was written. -/
theorem nothing_asked (o : Opts) (h : o.nEvents ≤ 0) (made : List Made) : IsCount o made 0 ∧ endOf o made 0 = .zeroDivision := by
  refine ⟨⟨Nat.zero_le _, by simp, fun _ h' => absurd h' (by omega), fun _ h' => absurd h' (by push_cast; omega)⟩, ?_⟩
  unfold endOf report
  rw [if_neg (by push_cast; omega), total_zero, if_pos rfl]

/-! ### attempts -/

theorem group_rows (o : Opts) : ∀ (as : List (Option Try)) (j : ℕ), (group j as).map (row o) = (as.filterMap id).map (tryRow o)
  | [], _ => rfl
  | none :: as, j => by
    unfold group
    rw [group_rows o as (j + 1)]
    rfl
  | some t :: as, j => by
    unfold group
    rw [List.map_cons, group_rows o as 0]
    rfl

theorem group_length : ∀ (as : List (Option Try)) (j : ℕ), (group j as).length = (as.filterMap id).length
  | [], _ => rfl
  | none :: as, j => by
    unfold group
    rw [group_length as (j + 1)]
    rfl
  | some t :: as, j => by
    unfold group
    rw [List.length_cons, group_length as 0]
    rfl

theorem group_total_gt : ∀ (as : List (Option Try)) (j k : ℕ), k < (group j as).length → j < total (group j as) (k + 1)
  | [], _, _, h => by simp [group] at h
  | none :: as, j, k, h => by
    unfold group at h ⊢
    have := group_total_gt as (j + 1) k h
    omega
  | some t :: as, j, k, h => by
    unfold group
    rw [total_cons]
    dsimp only
    omega

theorem group_total : ∀ (as : List (Option Try)) (j k L : ℕ), k < (group j as).length →
    (total (group j as) (k + 1) ≤ L + j ↔ k < ((as.take L).filterMap id).length)
  | [], _, _, _, h => by simp [group] at h
  | none :: as, j, k, 0, h => by
    have := group_total_gt (none :: as) j k h
    rw [List.take_zero]
    simp only [List.filterMap_nil, List.length_nil]
    omega
  | none :: as, j, k, L + 1, h => by
    have ih := group_total as (j + 1) k L (by unfold group at h; exact h)
    have e : group j (none :: as) = group (j + 1) as := by conv_lhs => unfold group
    rw [e, List.take_succ_cons, List.filterMap_cons_none (by rfl), ← ih]
    omega
  | some t :: as, j, k, 0, h => by
    have := group_total_gt (some t :: as) j k h
    rw [List.take_zero]
    simp only [List.filterMap_nil, List.length_nil]
    omega
  | some t :: as, j, k, L + 1, h => by
    have e : group j (some t :: as) = ⟨j + 1, t.beam, t.final, t.mass, t.tPrime⟩ :: group 0 as := by conv_lhs => unfold group
    rw [e] at h ⊢
    rw [total_cons, List.take_succ_cons, List.filterMap_cons_some (by rfl), List.length_cons]
    dsimp only
    cases k with
    | zero => rw [total_zero]; omega
    | succ k =>
      have ih := group_total as 0 k L (by simpa using h)
      omega

/-- **C97.** In terms of the attempts of the generator: the file has the successful ones among the first `limit` attempts, in order, but not more than asked for. -/
theorem script_tries (md5 : Hashor → String) (o : Opts) (as : List (Option Try)) {names : List String} {bounds : Bounds} (hv : o.variables = some (names, bounds))
    (hs : ∀ t, some t ∈ as → t.final.length = o.finalNames.length) (hlim : 0 ≤ o.limit) : ∃ m e, script md5 o (group 0 as) = .ok (some m, e) ∧
      FileOf md5 m o names bounds ((((limited o as).filterMap id).take o.nEvents.toNat).map (tryRow o)) := by
  have hshape : SameShape o (group 0 as) := by
    intro m hm
    have : (row o m) ∈ (group 0 as).map (row o) := List.mem_map_of_mem hm
    rw [group_rows] at this
    obtain ⟨t, ht, he⟩ := List.mem_map.1 this
    obtain ⟨x, hx, hx'⟩ := List.mem_filterMap.1 ht
    have hx2 : x = some t := hx'
    have : (tryRow o t).decay = (row o m).decay := by rw [he]
    have h2 : t.final = m.final := this
    rw [← h2]
    exact hs t (hx2 ▸ hx)
  obtain ⟨m, k, hk, h1, h2⟩ := script_file md5 o (group 0 as) hv hshape
  refine ⟨m, _, h1, ?_⟩
  have hpre : (limited o as).filterMap id <+: as.filterMap id := by
    unfold limited
    split
    · exact List.prefix_rfl
    · exact (List.take_prefix _ as).filterMap _
  have hle := hpre.length_le
  have hkey : ∀ i, i < (group 0 as).length → ((o.limit ≠ 0 → (total (group 0 as) (i + 1) : ℤ) ≤ o.limit) ↔ i < ((limited o as).filterMap id).length) := by
    intro i hi
    unfold limited
    by_cases h0 : o.limit = 0
    · rw [if_pos h0, ← group_length as 0]
      exact ⟨fun _ => hi, fun _ h => absurd h0 h⟩
    · rw [if_neg h0, ← group_total as 0 i o.limit.toNat hi]
      constructor
      · intro h; have := h h0; omega
      · intro h _; omega
  have hkk : k = min o.nEvents.toNat ((limited o as).filterMap id).length := by
    have a1 := hk.le
    have a2 := hk.asked
    have hg := group_length as 0
    have b1 : k ≤ ((limited o as).filterMap id).length := by
      rcases Nat.eq_zero_or_pos k with h0 | h0
      · omega
      · have := (hkey (k - 1) (by omega)).1 (fun hz => by rw [Nat.sub_add_cancel h0]; exact hk.fits hz h0)
        omega
    by_contra hne
    have c1 : k < o.nEvents.toNat := by omega
    have c2 : k < ((limited o as).filterMap id).length := by omega
    obtain ⟨d1, d2⟩ := hk.most (by omega) (by omega)
    have := (hkey k (by omega)).2 c2 d1
    omega
  have hrows : ((group 0 as).take k).map (row o) = (((limited o as).filterMap id).take o.nEvents.toNat).map (tryRow o) := by
    rw [List.map_take, group_rows, List.map_take]
    obtain ⟨rest, hr⟩ := hpre
    rw [← hr, List.map_append, hkk]
    rw [List.take_append_of_le_length (by rw [List.length_map]; exact min_le_right _ _)]
    rcases le_total o.nEvents.toNat ((limited o as).filterMap id).length with h | h
    · rw [min_eq_left h]
    · rw [min_eq_right h, List.take_of_length_le (by rw [List.length_map]), List.take_of_length_le (by rw [List.length_map]; exact h)]
  rw [← hrows]
  exact h2

/-- **C97.** The limit is checked after an event only: if no attempt after the limit succeeds, the script does not end, however many attempts are made. -/
theorem limit_needs_event (o : Opts) (as : List (Option Try)) (k : ℕ) (hk : IsCount o (group 0 as) k) (hlim : 0 < o.limit)
    (h : ∀ a ∈ as.drop o.limit.toNat, a = none) (hn : (((as.take o.limit.toNat).filterMap id).length : ℤ) < o.nEvents) : endOf o (group 0 as) k = .interrupted := by
  have hall : (as.filterMap id).length = ((as.take o.limit.toNat).filterMap id).length := by
    conv_lhs => rw [← List.take_append_drop o.limit.toNat as, List.filterMap_append]
    rw [List.length_append]
    have : (as.drop o.limit.toNat).filterMap id = [] := by
      rw [List.filterMap_eq_nil_iff]
      exact fun a ha => h a ha
    rw [this]
    rfl
  have hg := group_length as 0
  have h1 := hk.le
  have hfull : k = (group 0 as).length := by
    by_contra hne
    obtain ⟨d1, d2⟩ := hk.most (by omega) (by omega)
    have := (group_total as 0 k o.limit.toNat (by omega)).2 (by omega)
    omega
  unfold endOf
  rw [if_pos (by omega), if_pos hfull]

/-- **C97.** The reported efficiency of a script that reached the limit is too small: the attempts of the event that was thrown away are included. -/
theorem efficiency_low (o : Opts) (made : List Made) (k : ℕ) (hk : IsCount o made k) (h1 : (k : ℤ) < o.nEvents) (h2 : k < made.length) (h3 : 0 < k) :
    ∃ a : ℕ, endOf o made k = .done k a ((k : ℚ) / a) ∧ o.limit < a ∧ (k : ℚ) / a < k / o.limit := by
  obtain ⟨d1, d2⟩ := hk.most h2 h1
  have hf := hk.fits d1 h3
  have hpos : 0 < o.limit := by omega
  refine ⟨total made (k + 1), ?_, d2, ?_⟩
  · unfold endOf report
    rw [if_pos h1, if_neg (by omega), if_neg (by omega)]
  · have hk0 : (0 : ℚ) < k := by exact_mod_cast h3
    have hl0 : (0 : ℚ) < o.limit := by exact_mod_cast hpos
    have hlt : ((o.limit : ℤ) : ℚ) < (total made (k + 1) : ℕ) := by exact_mod_cast d2
    exact div_lt_div_of_pos_left hk0 hl0 hlt

/-! ### the file name -/

/-- **C97.** The number of the file is the first that is free. -/
theorem freeName_spec (taken : ℕ → Bool) : ∀ (fuel index n : ℕ), index ≤ n → n < index + fuel → taken n = false → (∀ i, index ≤ i → i < n → taken i = true) →
    freeName taken fuel index = some n
  | 0, index, n, h1, h2, _, _ => by omega
  | fuel + 1, index, n, h1, h2, h3, h4 => by
    unfold freeName
    by_cases h : index = n
    · subst h
      rw [h3]
      rfl
    · rw [if_pos (h4 index le_rfl (by omega))]
      exact freeName_spec taken fuel (index + 1) n (by omega) (by omega) h3 fun i hi hi' => h4 i (by omega) hi'

end Rpwa.PhaseGen
