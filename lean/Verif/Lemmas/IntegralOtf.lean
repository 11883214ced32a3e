import Verif.Lemmas.IntegralMeta
/-! Lemmas for C89: the event loop of the integration on the fly. -/
namespace Rpwa.IntMeta
open Rpwa.Integral Rpwa.Storage

variable (bytes : ℂ → List UInt8)

theorem find_self {waves : List OtfWave} (hn : (waves.map (·.wave)).Nodup) {w : OtfWave} (hw : w ∈ waves) :
    waves.find? (·.wave = w.wave) = some w := by
  cases h : waves.find? (fun x => decide (x.wave = w.wave)) with
  | none =>
    have := List.find?_eq_none.1 h w hw
    simp at this
  | some y =>
    have hy := List.mem_of_find?_eq_some h
    have hya : y.wave = w.wave := by simpa using List.find?_some h
    rw [List.inj_on_of_nodup_map hn hy hw hya]

theorem otfAmps_spec (ev : ℕ) (waves : List OtfWave) (hn : (waves.map (·.wave)).Nodup) (d : String → Option ℂ) (g : OtfWave → List UInt8) :
    ((∀ w ∈ waves, (w.amp ev).isSome = true) → ∃ d', otfAmps bytes ev waves (d, waves.map g) =
        some (d', waves.map fun w => g w ++ bytes ((w.amp ev).getD 0)) ∧
        (∀ w ∈ waves, d' w.wave = w.amp ev) ∧ ∀ n, n ∉ waves.map (·.wave) → d' n = d n) ∧
    (¬ (∀ w ∈ waves, (w.amp ev).isSome = true) → otfAmps bytes ev waves (d, waves.map g) = none) := by
  induction waves generalizing d with
  | nil => simp [otfAmps]
  | cons w ws ih =>
    simp only [List.map_cons, List.nodup_cons] at hn
    cases hz : w.amp ev with
    | none =>
      refine ⟨fun h => ?_, fun _ => ?_⟩
      · have := h w (by simp)
        simp [hz] at this
      · simp [otfAmps, hz]
    | some z =>
      obtain ⟨i1, i2⟩ := ih hn.2 (Function.update d w.wave (some z))
      constructor
      · intro h
        obtain ⟨d', e, c1, c2⟩ := i1 fun u hu => h u (by simp [hu])
        refine ⟨d', ?_, ?_, ?_⟩
        · simp only [otfAmps, hz, List.map_cons, e, Option.map_some, Option.getD_some]
        · intro u hu
          rcases List.mem_cons.1 hu with rfl | hu
          · rw [c2 _ hn.1, hz]; simp
          · exact c1 u hu
        · intro n hnm
          simp only [List.map_cons, List.mem_cons, not_or] at hnm
          rw [c2 n hnm.2, Function.update_of_ne hnm.1]
      · intro h
        have : ¬ ∀ u ∈ ws, (u.amp ev).isSome = true := by
          intro hc
          apply h
          intro u hu
          rcases List.mem_cons.1 hu with rfl | hu
          · simp [hz]
          · exact hc u hu
        simp only [otfAmps, hz, List.map_cons, i2 this, Option.map_none]

theorem otf_outside (bins : BinMap) (vars : String → Option ℝ) :
    outsideBin bins vars = !inBoundaries bins vars := by
  unfold inBoundaries outsideBin
  rw [List.not_all_eq_any_not]
  congr 1
  funext b
  cases vars b.1 <;> simp

/-- the events among the first `k` of the range. -/
noncomputable def otfUpTo (bins : BinMap) (rows : ℕ → String → Option ℝ) (first k : ℕ) : List ℕ :=
  ((List.range k).map (first + ·)).filter fun ev => inBoundaries bins (rows ev)

theorem otfUpTo_eq (bins : BinMap) (rows : ℕ → String → Option ℝ) (first last : ℕ) :
    otfUpTo bins rows first (last - first) = otfEvents bins rows first last := by
  classical
  unfold otfUpTo otfEvents
  apply List.filter_congr
  intro ev _
  rw [Bool.eq_iff_iff, inBoundaries_iff, decide_eq_true_iff]

/-- the hash input of a wave. -/
noncomputable def otfBytes (evs : List ℕ) (w : OtfWave) : List UInt8 := evs.flatMap fun ev => bytes ((w.amp ev).getD 0)

theorem otfLoop_spec (waves : List OtfWave) (hn : (waves.map (·.wave)).Nodup) (bins : BinMap) (rows : ℕ → String → Option ℝ) (first k : ℕ)
    (M0 : IntMat) (d0 : String → Option ℂ) (hw0 : M0.WF) (hn0 : M0.names = waves.map (·.wave)) (he0 : M0.nmbEvents = 0)
    (hm0 : ∀ a b, M0.entry a b = 0) :
    ((∀ ev ∈ otfUpTo bins rows first k, ∀ w ∈ waves, (w.amp ev).isSome = true) →
      ∃ M d, otfLoop bytes waves bins rows first k (M0, d0, waves.map fun _ => []) =
          .ok (some (M, d, waves.map (otfBytes bytes (otfUpTo bins rows first k)))) ∧
        M.WF ∧ M.names = waves.map (·.wave) ∧ M.nmbEvents = (otfUpTo bins rows first k).length ∧
        ∀ a ∈ M.names, ∀ b ∈ M.names, M.entry a b = otfTotal waves (otfUpTo bins rows first k) a b) ∧
    (¬ (∀ ev ∈ otfUpTo bins rows first k, ∀ w ∈ waves, (w.amp ev).isSome = true) →
      otfLoop bytes waves bins rows first k (M0, d0, waves.map fun _ => []) = .ok none) := by
  induction k with
  | zero =>
    refine ⟨fun _ => ⟨M0, d0, ?_, hw0, hn0, by simp [otfUpTo, he0], fun a _ b _ => ?_⟩, fun h => ?_⟩
    · rfl
    · rw [hm0]; simp [otfUpTo, otfTotal]
    · exact absurd (by simp [otfUpTo]) h
  | succ k ih =>
    by_cases hk : ∀ ev ∈ otfUpTo bins rows first k, ∀ w ∈ waves, (w.amp ev).isSome = true
    · obtain ⟨M, d, e, wM, nM, eM, vM⟩ := ih.1 hk
      simp only [otfLoop]
      rw [e]
      simp only [Outcome.ok_bind]
      unfold otfEvent
      rw [otf_outside]
      by_cases hb : inBoundaries bins (rows (first + k)) = true
      · have hL : otfUpTo bins rows first (k + 1) = otfUpTo bins rows first k ++ [first + k] := by
          simp [otfUpTo, List.range_succ, List.filter_append, hb]
        rw [if_neg (by simp [hb]), hL]
        obtain ⟨s1, s2⟩ := otfAmps_spec bytes (first + k) waves hn d (otfBytes bytes (otfUpTo bins rows first k))
        by_cases hr : ∀ w ∈ waves, (w.amp (first + k)).isSome = true
        · refine ⟨fun _ => ?_, fun h => ?_⟩
          · obtain ⟨d', e', c1, _⟩ := s1 hr
            dsimp only
            rw [e']
            dsimp only
            have hall : M.names.all (fun n => (d' n).isSome) = true := by
              rw [nM, List.all_eq_true]
              intro n hm
              obtain ⟨w, hw, rfl⟩ := List.mem_map.1 hm
              rw [c1 w hw]; exact hr w hw
            have hd : ∀ a ∈ M.names, (d' a).getD 0 = otfAmp waves a (first + k) := by
              intro a ha
              rw [nM] at ha
              obtain ⟨w, hw, rfl⟩ := List.mem_map.1 ha
              unfold otfAmp
              rw [find_self hn hw, c1 w hw]
              rfl
            rw [addEvent_ok M wM d', if_pos hall]
            simp only [Outcome.ok_bind, if_true]
            have hh : (waves.map fun w => otfBytes bytes (otfUpTo bins rows first k) w ++ bytes ((w.amp (first + k)).getD 0)) =
                waves.map (otfBytes bytes (otfUpTo bins rows first k ++ [first + k])) := by
              apply List.map_congr_left
              intro w _
              simp [otfBytes]
            rw [hh]
            refine ⟨_, _, rfl, ⟨wM.waves, wM.rows, wM.cols⟩, nM, by simp [eM], ?_⟩
            intro a ha b hb
            have ia := List.idxOf_lt_length_of_mem ha
            have ib := List.idxOf_lt_length_of_mem hb
            show (if M.names.idxOf a < M.names.length ∧ M.names.idxOf b < M.names.length then _ else _) = _
            rw [if_pos ⟨ia, ib⟩, getD_idxOf ha, getD_idxOf hb, hd a ha, hd b hb]
            have := vM a ha b hb
            unfold IntMat.entry at this
            rw [this]
            simp [otfTotal]
          · exact absurd (fun ev hev w hw => by
              rcases List.mem_append.1 hev with hev | hev
              · exact hk ev hev w hw
              · rw [List.mem_singleton] at hev; subst hev; exact hr w hw) h
        · refine ⟨fun h => absurd (fun w hw => h (first + k) (by simp) w hw) hr, fun _ => ?_⟩
          dsimp only
          rw [s2 hr]
      · have hL : otfUpTo bins rows first (k + 1) = otfUpTo bins rows first k := by
          simp [otfUpTo, List.range_succ, List.filter_append, hb]
        rw [if_pos (by simpa using hb), hL]
        exact ⟨fun _ => ⟨M, d, rfl, wM, nM, eM, vM⟩, fun h => absurd hk h⟩
    · have hsub : ∀ ev ∈ otfUpTo bins rows first k, ev ∈ otfUpTo bins rows first (k + 1) := by
        intro ev hev
        unfold otfUpTo at hev ⊢
        rw [List.range_succ, List.map_append, List.filter_append]
        exact List.mem_append_left _ hev
      refine ⟨fun h => absurd (fun ev hev => h ev (hsub ev hev)) hk, fun _ => ?_⟩
      simp only [otfLoop]
      rw [ih.2 hk]
      rfl

theorem addKeyFiles_iff (waves : List OtfWave) (m m' : Meta) (hk : m.keyFiles.Nodup) :
    addKeyFiles waves m = some m' ↔ (m.keyFiles ++ waves.map (·.keyFile)).Nodup ∧
      m' = { m with keyFiles := m.keyFiles ++ waves.map (·.keyFile) } := by
  induction waves generalizing m with
  | nil => simp [addKeyFiles, hk, eq_comm]
  | cons w ws ih =>
    unfold addKeyFiles Meta.addKeyFile Meta.hasKeyFile
    by_cases hc : m.keyFiles.contains w.keyFile = true
    · rw [if_pos hc]
      dsimp only
      refine ⟨fun h => by simp at h, fun h => ?_⟩
      exact absurd rfl ((List.nodup_append.1 h.1).2.2 w.keyFile (by simpa using hc) w.keyFile (by simp))
    · rw [if_neg hc]
      dsimp only
      have hc' : w.keyFile ∉ m.keyFiles := by simpa using hc
      rw [ih _ (by
        simp only [List.nodup_append, hk, List.nodup_singleton, List.mem_singleton, true_and]
        rintro a ha b rfl rfl
        exact hc' ha)]
      simp

theorem massFix_spec (b : BinMap) (hn : (b.map (·.1)).Nodup) : (massFix b).map (·.1) = b.map (·.1) ∧
    ∀ v lo hi, (v, (lo, hi)) ∈ b → (v, if v = "mass" ∧ lo > 200 then (lo / 1000, hi / 1000) else (lo, hi)) ∈ massFix b := by
  unfold massFix
  cases hl : b.lookup "mass" with
  | none =>
    dsimp only
    refine ⟨rfl, fun v lo hi h => ?_⟩
    rw [if_neg]
    · exact h
    · rintro ⟨rfl, _⟩
      rw [lookup_of_mem hn h] at hl
      simp at hl
  | some r =>
    dsimp only
    by_cases hr : r.1 > 200
    · rw [if_pos hr]
      refine ⟨?_, fun v lo hi h => ?_⟩
      · rw [List.map_map]
        apply List.map_congr_left
        intro p _
        simp only [Function.comp]
        split <;> rfl
      · by_cases hv : v = "mass"
        · subst hv
          have := lookup_of_mem hn h
          rw [hl] at this
          have := Option.some.inj this
          subst this
          rw [if_pos ⟨rfl, hr⟩]
          exact List.mem_map.2 ⟨_, h, by simp⟩
        · rw [if_neg (by simp [hv])]
          exact List.mem_map.2 ⟨_, h, by simp [hv]⟩
    · rw [if_neg hr]
      refine ⟨rfl, fun v lo hi h => ?_⟩
      rw [if_neg]
      · exact h
      · rintro ⟨rfl, h2⟩
        have := lookup_of_mem hn h
        rw [hl] at this
        have := Option.some.inj this
        subst this
        exact hr h2

theorem addHash_fold (md5 : List UInt8 → String) (hs : List Hashor) (m : Meta) :
    ∃ l, hs.foldl (fun m h => (m.addHash (md5 h)).2) m = { m with ampHashes := l } ∧
      ∀ x, x ∈ l ↔ x ∈ m.ampHashes ∨ (x ≠ m.allZeroHash ∧ ∃ h ∈ hs, x = md5 h) := by
  induction hs generalizing m with
  | nil => exact ⟨m.ampHashes, rfl, by simp⟩
  | cons h hs ih =>
    simp only [List.foldl_cons]
    have one : ∃ l, (m.addHash (md5 h)).2 = { m with ampHashes := l } ∧
        ∀ x, x ∈ l ↔ x ∈ m.ampHashes ∨ (x ≠ m.allZeroHash ∧ x = md5 h) := by
      unfold Meta.addHash
      by_cases h0 : md5 h = m.allZeroHash
      · rw [if_pos h0]
        refine ⟨m.ampHashes, rfl, fun x => ⟨Or.inl, ?_⟩⟩
        rintro (hx | ⟨hx, rfl⟩)
        · exact hx
        · exact absurd h0 hx
      · rw [if_neg h0]
        by_cases h1 : m.ampHashes.contains (md5 h) = true
        · rw [if_pos h1]
          refine ⟨m.ampHashes, rfl, fun x => ⟨Or.inl, ?_⟩⟩
          rintro (hx | ⟨hx, rfl⟩)
          · exact hx
          · simpa using h1
        · rw [if_neg h1]
          refine ⟨_, rfl, fun x => ?_⟩
          rw [List.mem_append, List.mem_singleton]
          constructor
          · rintro (hx | rfl)
            · exact .inl hx
            · exact .inr ⟨h0, rfl⟩
          · rintro (hx | ⟨_, hx⟩)
            · exact .inl hx
            · exact .inr hx
    obtain ⟨l1, e1, c1⟩ := one
    obtain ⟨l, e, c⟩ := ih { m with ampHashes := l1 }
    rw [e1]
    refine ⟨l, by rw [e], fun x => ?_⟩
    rw [c]
    dsimp only
    rw [c1]
    constructor
    · rintro ((hx | ⟨hx, rfl⟩) | ⟨hx, h', hm, rfl⟩)
      · exact .inl hx
      · exact .inr ⟨hx, h, by simp, rfl⟩
      · exact .inr ⟨hx, h', by simp [hm], rfl⟩
    · rintro (hx | ⟨hx, h', hm, rfl⟩)
      · exact .inl (.inl hx)
      · rcases List.mem_cons.1 hm with rfl | hm
        · exact .inl (.inr ⟨hx, rfl⟩)
        · exact .inr ⟨hx, h', hm, rfl⟩

end Rpwa.IntMeta
