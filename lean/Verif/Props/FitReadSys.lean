import Verif.Props.FitRead
import Mathlib.Tactic.Linarith
import Mathlib.Tactic.NormNum
/-! # C101: reading the results of fits: matrices, amplitudes, systematics -/
namespace Rpwa.FitRead

open Rpwa.FitCov (Mat pairRow applyWrites zeros covIdx covIdx_inj covIdx_pairRow covIdx_even applyWrites_eq applyWrites_none)

variable {K : Type} [Field K] [LinearOrder K] [IsStrictOrderedRing K]

/-! ### covariance matrix of the spin-density matrix -/

theorem sdCov_mem (n : ℕ) (scale : K) (cov : ℕ → ℕ → Mat K) (w : ℕ × ℕ × K) :
    (w ∈ (List.range n).flatMap fun i => (List.range n).flatMap fun j =>
      if j ≥ i then (List.range 2).flatMap fun k => (List.range 2).map fun l => (covIdx n i j + k, covIdx n i j + l, cov i j k l * scale) else []) ↔
    ∃ i j k l, i ≤ j ∧ j < n ∧ k < 2 ∧ l < 2 ∧ w = (covIdx n i j + k, covIdx n i j + l, cov i j k l * scale) := by
  constructor
  · intro h
    obtain ⟨i, hi, h⟩ := List.mem_flatMap.1 h
    obtain ⟨j, hj, h⟩ := List.mem_flatMap.1 h
    by_cases hij : j ≥ i
    · rw [if_pos hij] at h
      obtain ⟨k, hk, h⟩ := List.mem_flatMap.1 h
      obtain ⟨l, hl, h⟩ := List.mem_map.1 h
      exact ⟨i, j, k, l, hij, List.mem_range.1 hj, List.mem_range.1 hk, List.mem_range.1 hl, h.symm⟩
    · rw [if_neg hij] at h
      cases h
  · rintro ⟨i, j, k, l, hij, hj, hk, hl, rfl⟩
    refine List.mem_flatMap.2 ⟨i, List.mem_range.2 (by omega), List.mem_flatMap.2 ⟨j, List.mem_range.2 hj, ?_⟩⟩
    rw [if_pos hij]
    exact List.mem_flatMap.2 ⟨k, List.mem_range.2 hk, List.mem_map.2 ⟨l, List.mem_range.2 hl, rfl⟩⟩

/-- **C101** (covariances): the block of a pair of waves is its scaled covariance matrix, covariances of different pairs are zero. -/
theorem sdCov_block (n : ℕ) (scale : K) (cov : ℕ → ℕ → Mat K) (i j i' j' k l : ℕ) (hij : i ≤ j) (hj : j < n) (hij' : i' ≤ j') (hj' : j' < n)
    (hk : k < 2) (hl : l < 2) :
    sdCov n scale cov (pairRow n i j + k) (pairRow n i' j' + l) = if i = i' ∧ j = j' then scale * cov i j k l else 0 := by
  have key : ∀ a b c d x y : ℕ, a ≤ b → b < n → c ≤ d → d < n → x < 2 → y < 2 → covIdx n a b + x = covIdx n c d + y → a = c ∧ b = d ∧ x = y := by
    intro a b c d x y h1 h2 h3 h4 h5 h6 h
    have h7 := covIdx_even n a b (by omega)
    have h8 := covIdx_even n c d (by omega)
    have h9 : covIdx n a b = covIdx n c d := by omega
    obtain ⟨h10, h11⟩ := covIdx_inj n a b c d h1 h2 h3 h4 h9
    exact ⟨h10, h11, by omega⟩
  rw [← covIdx_pairRow n i j (by omega), ← covIdx_pairRow n i' j' (by omega)]
  unfold sdCov
  by_cases h : i = i' ∧ j = j'
  · rw [if_pos h]
    obtain ⟨rfl, rfl⟩ := h
    apply applyWrites_eq
    · intro w hw h1 h2
      obtain ⟨a, b, x, y, h3, h4, h5, h6, rfl⟩ := (sdCov_mem n scale cov w).1 hw
      obtain ⟨rfl, rfl, rfl⟩ := key a b i j x k h3 h4 hij hj h5 hk h1
      obtain ⟨_, _, rfl⟩ := key a b a b y l h3 h4 h3 h4 h6 hl h2
      exact mul_comm _ _
    · right
      exact ⟨_, (sdCov_mem n scale cov _).2 ⟨i, j, k, l, hij, hj, hk, hl, rfl⟩, rfl, rfl⟩
  · rw [if_neg h, applyWrites_none]
    · rfl
    · intro w hw h1 h2
      obtain ⟨a, b, x, y, h3, h4, h5, h6, rfl⟩ := (sdCov_mem n scale cov w).1 hw
      obtain ⟨rfl, rfl, _⟩ := key a b i j x k h3 h4 hij hj h5 hk h1
      obtain ⟨rfl, rfl, _⟩ := key a b i' j' y l h3 h4 hij' hj' h6 hl h2
      exact h ⟨rfl, rfl⟩

/-! ### production amplitudes -/

theorem findIdx_wave {W : Type} [DecidableEq W] (waves : List W) (hnd : waves.Nodup) (x : W) (i : ℕ) :
    (waves.findIdx? fun w => w = x) = some i ↔ waves[i]? = some x := by
  rw [List.findIdx?_eq_some_iff_getElem]
  constructor
  · rintro ⟨h, h1, _⟩
    rw [List.getElem?_eq_getElem h, of_decide_eq_true h1]
  · intro h
    obtain ⟨h1, h2⟩ := List.getElem?_eq_some_iff.1 h
    refine ⟨h1, decide_eq_true h2, ?_⟩
    intro j hj h3
    have h4 : waves[j] = waves[i] := (of_decide_eq_true h3).trans h2.symm
    have := (List.Nodup.getElem_inj_iff hnd).1 h4
    omega

theorem readAmps_spec {W A : Type} [DecidableEq W] (waves : List W) (hnd : waves.Nodup) : ∀ (ps : List (ProdAmp W A)) (k0 : ℕ) (st : List A × List ℕ),
    st.1.length = waves.length → st.2.length = waves.length →
    ((∃ out, readAmps waves k0 ps st = .ok out) ↔ ∀ p ∈ ps, p.wave ∈ waves → p.rank = 0) ∧
    readAmps waves k0 ps st ≠ .ub ∧
    ∀ out, readAmps waves k0 ps st = .ok out → (ps.map (·.wave)).Nodup →
      out.1.length = waves.length ∧ out.2.length = waves.length ∧
      ∀ (i : ℕ) (w : W), waves[i]? = some w →
        (∀ (k : ℕ) (p : ProdAmp W A), ps[k]? = some p → p.wave = w → out.1[i]? = some p.amp ∧ out.2[i]? = some (k0 + k)) ∧
        ((∀ p ∈ ps, p.wave ≠ w) → out.1[i]? = st.1[i]? ∧ out.2[i]? = st.2[i]?) := by
  intro ps
  induction ps with
  | nil =>
    intro k0 st h1 h2
    refine ⟨⟨fun _ p hp => absurd hp (List.not_mem_nil), fun _ => ⟨st, rfl⟩⟩, fun h => (by cases h), ?_⟩
    intro out h _
    obtain rfl := Outcome.ok.inj h
    refine ⟨h1, h2, ?_⟩
    intro i w _
    exact ⟨fun k p hp => (by simp at hp), fun _ => ⟨rfl, rfl⟩⟩
  | cons p ps ih =>
    intro k0 st h1 h2
    cases hf : waves.findIdx? fun w => w = p.wave with
    | none =>
      have hnot : p.wave ∉ waves := by
        intro hm
        obtain ⟨i, hi⟩ := List.mem_iff_getElem?.1 hm
        rw [(findIdx_wave waves hnd p.wave i).2 hi] at hf
        cases hf
      have he : readAmps waves k0 (p :: ps) st = readAmps waves (k0 + 1) ps st := by
        conv_lhs => unfold readAmps
        rw [hf]
      rw [he]
      obtain ⟨i1, i2, i3⟩ := ih (k0 + 1) st h1 h2
      refine ⟨?_, i2, ?_⟩
      · rw [i1]
        constructor
        · intro h q hq hw
          rcases List.mem_cons.1 hq with rfl | hq
          · exact absurd hw hnot
          · exact h q hq hw
        · intro h q hq hw
          exact h q (List.mem_cons_of_mem _ hq) hw
      · intro out ho hd
        rw [List.map_cons] at hd
        obtain ⟨j1, j2, j3⟩ := i3 out ho (List.nodup_cons.1 hd).2
        refine ⟨j1, j2, ?_⟩
        intro i w hw
        obtain ⟨j4, j5⟩ := j3 i w hw
        constructor
        · intro k q hq hqw
          cases k with
          | zero =>
            have : p = q := Option.some.inj hq
            subst this
            exact absurd (hqw ▸ List.mem_of_getElem? hw) hnot
          | succ k =>
            have := j4 k q hq hqw
            refine ⟨this.1, ?_⟩
            rw [this.2]
            congr 1
            omega
        · intro h
          exact j5 fun q hq => h q (List.mem_cons_of_mem _ hq)
    | some i =>
      have hi : waves[i]? = some p.wave := (findIdx_wave waves hnd p.wave i).1 hf
      have hil : i < waves.length := (List.getElem?_eq_some_iff.1 hi).1
      by_cases hr : p.rank ≠ 0
      · have he : readAmps waves k0 (p :: ps) st = .terminate := by
          conv_lhs => unfold readAmps
          rw [hf]
          dsimp only
          rw [if_pos hr]
        rw [he]
        refine ⟨⟨fun ⟨out, h⟩ => (by cases h), fun h => absurd (h p List.mem_cons_self (List.mem_of_getElem? hi)) hr⟩, fun h => (by cases h), ?_⟩
        intro out h
        cases h
      · have he : readAmps waves k0 (p :: ps) st = readAmps waves (k0 + 1) ps (st.1.set i p.amp, st.2.set i k0) := by
          conv_lhs => unfold readAmps
          rw [hf]
          dsimp only
          rw [if_neg hr]
        rw [he]
        obtain ⟨i1, i2, i3⟩ := ih (k0 + 1) (st.1.set i p.amp, st.2.set i k0) (by rw [List.length_set]; exact h1) (by rw [List.length_set]; exact h2)
        refine ⟨?_, i2, ?_⟩
        · rw [i1]
          constructor
          · intro h q hq hw
            rcases List.mem_cons.1 hq with rfl | hq
            · exact not_not.1 hr
            · exact h q hq hw
          · intro h q hq hw
            exact h q (List.mem_cons_of_mem _ hq) hw
        · intro out ho hd
          rw [List.map_cons] at hd
          obtain ⟨hd1, hd2⟩ := List.nodup_cons.1 hd
          obtain ⟨j1, j2, j3⟩ := i3 out ho hd2
          refine ⟨j1, j2, ?_⟩
          intro i' w hw
          obtain ⟨j4, j5⟩ := j3 i' w hw
          constructor
          · intro k q hq hqw
            cases k with
            | zero =>
              have : p = q := Option.some.inj hq
              subst this
              have hii : i = i' := by
                obtain ⟨a1, a2⟩ := List.getElem?_eq_some_iff.1 hi
                obtain ⟨b1, b2⟩ := List.getElem?_eq_some_iff.1 hw
                exact (List.Nodup.getElem_inj_iff hnd).1 (a2.trans (hqw.trans b2.symm))
              subst hii
              have hno : ∀ q ∈ ps, q.wave ≠ w := by
                intro q' hq' hqw'
                apply hd1
                rw [hqw, ← hqw']
                exact List.mem_map.2 ⟨q', hq', rfl⟩
              obtain ⟨j6, j7⟩ := j5 hno
              rw [j6, j7]
              dsimp only
              rw [List.getElem?_set_self (by omega), List.getElem?_set_self (by omega)]
              exact ⟨rfl, rfl⟩
            | succ k =>
              have := j4 k q hq hqw
              refine ⟨this.1, ?_⟩
              rw [this.2]
              congr 1
              omega
          · intro h
            obtain ⟨j6, j7⟩ := j5 fun q hq => h q (List.mem_cons_of_mem _ hq)
            have hii : i ≠ i' := by
              rintro rfl
              rw [hi] at hw
              exact h p List.mem_cons_self (Option.some.inj hw)
            rw [j6, j7]
            dsimp only
            rw [List.getElem?_set_ne hii, List.getElem?_set_ne hii]
            exact ⟨rfl, rfl⟩

/-- **C101** (amplitudes): a mass bin is read if and only if its result has all waves, and only rank zero for them; every wave gets its own
production amplitude and its own number. -/
theorem readWaves_spec {W A : Type} [DecidableEq W] [Zero A] (waves has : List W) (ps : List (ProdAmp W A)) (hnd : waves.Nodup)
    (hps : (ps.map (·.wave)).Nodup) (hhas : ∀ w, w ∈ has ↔ ∃ p ∈ ps, p.wave = w) :
    ((∃ out, readWaves waves has ps = .ok out) ↔ ∀ w ∈ waves, ∃ p ∈ ps, p.wave = w ∧ p.rank = 0) ∧
    readWaves waves has ps ≠ .ub ∧
    ∀ out, readWaves waves has ps = .ok out → out.1.length = waves.length ∧ out.2.length = waves.length ∧
      ∀ (i : ℕ) (w : W), waves[i]? = some w → ∃ (k : ℕ) (p : ProdAmp W A), ps[k]? = some p ∧ p.wave = w ∧ out.1[i]? = some p.amp ∧ out.2[i]? = some k := by
  have hall : (waves.all fun w => has.contains w) = true ↔ ∀ w ∈ waves, ∃ p ∈ ps, p.wave = w := by
    rw [List.all_eq_true]
    constructor
    · intro h w hw
      exact (hhas w).1 (List.contains_iff_mem.1 (h w hw))
    · intro h w hw
      exact List.contains_iff_mem.2 ((hhas w).2 (h w hw))
  obtain ⟨h1, h2, h3⟩ := readAmps_spec waves hnd ps 0 (List.replicate waves.length 0, List.replicate waves.length 0)
    List.length_replicate List.length_replicate
  unfold readWaves
  by_cases ha : (waves.all fun w => has.contains w) = true
  · rw [if_pos ha]
    have ha' := hall.1 ha
    refine ⟨?_, h2, ?_⟩
    · rw [h1]
      constructor
      · intro h w hw
        obtain ⟨p, hp, rfl⟩ := ha' w hw
        exact ⟨p, hp, rfl, h p hp hw⟩
      · intro h p hp hw
        obtain ⟨q, hq, hqw, hqr⟩ := h p.wave hw
        have : p = q := by
          obtain ⟨a, ha1⟩ := List.mem_iff_getElem?.1 hp
          obtain ⟨b, hb1⟩ := List.mem_iff_getElem?.1 hq
          obtain ⟨a1, a2⟩ := List.getElem?_eq_some_iff.1 ha1
          obtain ⟨b1, b2⟩ := List.getElem?_eq_some_iff.1 hb1
          have hab : a = b := by
            apply (List.Nodup.getElem_inj_iff hps (hi := by rw [List.length_map]; exact a1) (hj := by rw [List.length_map]; exact b1)).1
            rw [List.getElem_map, List.getElem_map, a2, b2, hqw]
          subst hab
          exact a2.symm.trans b2
        rw [this]
        exact hqr
    · intro out ho
      obtain ⟨h4, h5, h6⟩ := h3 out ho hps
      refine ⟨h4, h5, ?_⟩
      intro i w hw
      obtain ⟨p, hp, hpw⟩ := ha' w (List.mem_of_getElem? hw)
      obtain ⟨k, hk⟩ := List.mem_iff_getElem?.1 hp
      obtain ⟨h7, h8⟩ := (h6 i w hw).1 k p hk hpw
      rw [Nat.zero_add] at h8
      exact ⟨k, p, hk, hpw, h7, h8⟩
  · rw [if_neg ha]
    refine ⟨⟨fun ⟨out, h⟩ => (by cases h), fun h => ?_⟩, fun h => (by cases h), fun out h => (by cases h)⟩
    exact absurd (hall.2 fun w hw => (by obtain ⟨p, hp, hpw, _⟩ := h w hw; exact ⟨p, hp, hpw⟩)) ha

/-! ### phases -/

/-- **C101** (phases): a phase of the systematics is moved by at most one turn, to the closest one. -/
theorem rotate_closest (d v : K) : ClosestTurn d v (rotate d v) := by
  unfold rotate ClosestTurn
  by_cases h1 : |v + 360 - d| < |v - d|
  · rw [if_pos h1]
    refine ⟨Or.inr (Or.inl rfl), h1.le, le_refl _, ?_⟩
    apply h1.le.trans
    have h2 : v - d < 0 := by
      by_contra h
      have h := not_lt.1 h
      rw [abs_of_nonneg h, abs_of_nonneg (by linarith)] at h1
      linarith
    rw [abs_of_neg h2, abs_of_neg (by linarith)]
    linarith
  · rw [if_neg h1]
    by_cases h2 : |v - 360 - d| < |v - d|
    · rw [if_pos h2]
      exact ⟨Or.inr (Or.inr rfl), h2.le, h2.le.trans (not_lt.1 h1), le_refl _⟩
    · rw [if_neg h2]
      exact ⟨Or.inl rfl, le_refl _, not_lt.1 h1, not_lt.1 h2⟩

/-- principal values (and a bit more) come next to the data. -/
theorem rotate_within (d v : K) (h : |v - d| ≤ 540) : |rotate d v - d| ≤ 180 := by
  obtain ⟨_, h1, h2, h3⟩ := rotate_closest d v
  obtain ⟨h4, h5⟩ := abs_le.1 h
  by_cases ha : v - d ≤ -180
  · apply h2.trans
    rw [abs_le]
    constructor <;> linarith
  · by_cases hb : 180 ≤ v - d
    · apply h3.trans
      rw [abs_le]
      constructor <;> linarith
    · apply h1.trans
      rw [abs_le]
      constructor <;> linarith

/-! ### systematics -/

theorem sysFile_ok (tol : K) (adj : K → K → K) (cs ds : List K) (file bands out : List (K × K)) (hd : ds.length = cs.length)
    (hb : bands.length = cs.length) (h : sysFile tol adj cs ds file bands = .ok out) :
    out.length = cs.length ∧ (∃ mp, Mapped tol cs (file.map Prod.fst) mp) ∧
    ∀ (m : ℕ) (d : K) (b : K × K), ds[m]? = some d → bands[m]? = some b →
      ∃ v, ValueAt tol cs file m v ∧ (∀ v', ValueAt tol cs file m v' → v' = v) ∧ out[m]? = some (min b.1 (adj d v), max b.2 (adj d v)) := by
  unfold sysFile at h
  cases hc : checkMassBins tol cs (file.map Prod.fst) with
  | terminate => rw [hc] at h; cases h
  | ub => rw [hc] at h; cases h
  | ok mp =>
    rw [hc] at h
    obtain rfl := Outcome.ok.inj h
    have hM := (checkMassBins_ok tol cs (file.map Prod.fst) mp).1 hc
    refine ⟨by rw [List.length_mapIdx]; exact hb, ⟨mp, hM⟩, ?_⟩
    obtain ⟨h1, h2, h3⟩ := hM
    intro m d b hmd hmb
    have hm : m < mp.length := by
      have := (List.getElem?_eq_some_iff.1 hmb).1
      omega
    have hk : mp[m]? = some mp[m] := List.getElem?_eq_getElem hm
    obtain ⟨x, h4, h5⟩ := (h2 m mp[m]).1 hk
    rw [List.getElem?_map] at h4
    obtain ⟨e, he, rfl⟩ := Option.map_eq_some_iff.1 h4
    refine ⟨e.2, ⟨e.1, List.mem_of_getElem? he, h5⟩, ?_, ?_⟩
    · rintro v' ⟨x', hx', hfn⟩
      obtain ⟨k', hk'⟩ := List.mem_iff_getElem?.1 hx'
      have h6 := (h2 m k').2 ⟨x', by rw [List.getElem?_map, hk']; rfl, hfn⟩
      rw [hk] at h6
      rw [← Option.some.inj h6, he] at hk'
      rw [Option.some.inj hk']
    · rw [List.getElem?_mapIdx, hmb]
      dsimp only [Option.map]
      rw [List.getD_eq_getElem?_getD, List.getD_eq_getElem?_getD, List.getD_eq_getElem?_getD, hmd, hk]
      dsimp only [Option.getD]
      rw [he]

theorem hull_insert {S : Set K} {b : K × K} (h : Hull S b) (v : K) : Hull (insert v S) (min b.1 v, max b.2 v) := by
  obtain ⟨⟨h1, h2⟩, h3, h4⟩ := h
  refine ⟨⟨?_, ?_⟩, ?_, ?_⟩
  · rcases min_choice b.1 v with h | h
    · show min b.1 v ∈ _
      rw [h]
      exact Set.mem_insert_of_mem _ h1
    · show min b.1 v ∈ _
      rw [h]
      exact Set.mem_insert _ _
  · intro x hx
    rcases Set.mem_insert_iff.1 hx with rfl | hx
    · exact min_le_right _ _
    · exact (min_le_left _ _).trans (h2 x hx)
  · rcases max_choice b.2 v with h | h
    · show max b.2 v ∈ _
      rw [h]
      exact Set.mem_insert_of_mem _ h3
    · show max b.2 v ∈ _
      rw [h]
      exact Set.mem_insert _ _
  · intro x hx
    rcases Set.mem_insert_iff.1 hx with rfl | hx
    · exact le_max_right _ _
    · exact (h4 x hx).trans (le_max_left _ _)

theorem sysFiles_ok (tol : K) (adj : K → K → K) (cs ds : List K) (hd : ds.length = cs.length) : ∀ (files : List (List (K × K)))
    (bands out : List (K × K)) (S : ℕ → Set K), bands.length = cs.length → (∀ (m : ℕ) (b : K × K), bands[m]? = some b → Hull (S m) b) →
    sysFiles tol adj cs ds files bands = .ok out →
    out.length = cs.length ∧ (∀ f ∈ files, ∃ mp, Mapped tol cs (f.map Prod.fst) mp) ∧
    ∀ (m : ℕ) (d : K) (b : K × K), ds[m]? = some d → out[m]? = some b →
      Hull (S m ∪ { r | ∃ f ∈ files, ∃ v, ValueAt tol cs f m v ∧ r = adj d v }) b := by
  intro files
  induction files with
  | nil =>
    intro bands out S hb hS h
    obtain rfl := Outcome.ok.inj h
    refine ⟨hb, fun f hf => absurd hf List.not_mem_nil, ?_⟩
    intro m d b _ hmb
    have : S m ∪ { r | ∃ f ∈ ([] : List (List (K × K))), ∃ v, ValueAt tol cs f m v ∧ r = adj d v } = S m := by
      ext x
      simp
    rw [this]
    exact hS m b hmb
  | cons f fs ih =>
    intro bands out S hb hS h
    unfold sysFiles at h
    cases hf : sysFile tol adj cs ds f bands with
    | terminate => rw [hf] at h; cases h
    | ub => rw [hf] at h; cases h
    | ok bands' =>
      rw [hf] at h
      dsimp only at h
      obtain ⟨h1, h2, h3⟩ := sysFile_ok tol adj cs ds f bands bands' hd hb hf
      obtain ⟨h4, h5, h6⟩ := ih bands' out (fun m => S m ∪ { r | ∃ d v, ds[m]? = some d ∧ ValueAt tol cs f m v ∧ r = adj d v }) h1 (by
        intro m b' hb'
        have hm : m < cs.length := by
          have := (List.getElem?_eq_some_iff.1 hb').1
          omega
        have hmd : ds[m]? = some (ds[m]'(by omega)) := List.getElem?_eq_getElem _
        have hmb : bands[m]? = some (bands[m]'(by omega)) := List.getElem?_eq_getElem _
        obtain ⟨v, h7, h8, h9⟩ := h3 m _ _ hmd hmb
        rw [hb'] at h9
        obtain rfl := Option.some.inj h9
        have heq : S m ∪ { r | ∃ d v, ds[m]? = some d ∧ ValueAt tol cs f m v ∧ r = adj d v } = insert (adj (ds[m]'(by omega)) v) (S m) := by
          ext x
          constructor
          · rintro (hx | ⟨d, v', hd', hv', rfl⟩)
            · exact Set.mem_insert_of_mem _ hx
            · rw [hmd] at hd'
              obtain rfl := Option.some.inj hd'
              rw [h8 v' hv']
              exact Set.mem_insert _ _
          · intro hx
            rcases Set.mem_insert_iff.1 hx with rfl | hx
            · exact Or.inr ⟨_, v, hmd, h7, rfl⟩
            · exact Or.inl hx
        rw [heq]
        exact hull_insert (hS m _ hmb) _) h
      refine ⟨h4, ?_, ?_⟩
      · intro g hg
        rcases List.mem_cons.1 hg with rfl | hg
        · exact h2
        · exact h5 g hg
      · intro m d b hmd hmb
        have := h6 m d b hmd hmb
        have heq : S m ∪ { r | ∃ g ∈ f :: fs, ∃ v, ValueAt tol cs g m v ∧ r = adj d v } =
            (S m ∪ { r | ∃ d v, ds[m]? = some d ∧ ValueAt tol cs f m v ∧ r = adj d v }) ∪ { r | ∃ g ∈ fs, ∃ v, ValueAt tol cs g m v ∧ r = adj d v } := by
          ext x
          constructor
          · rintro (hx | ⟨g, hg, v, hv, rfl⟩)
            · exact Or.inl (Or.inl hx)
            · rcases List.mem_cons.1 hg with rfl | hg
              · exact Or.inl (Or.inr ⟨d, v, hmd, hv, rfl⟩)
              · exact Or.inr ⟨g, hg, v, hv, rfl⟩
          · rintro ((hx | ⟨d', v, hd', hv, rfl⟩) | ⟨g, hg, v, hv, rfl⟩)
            · exact Or.inl hx
            · rw [hmd] at hd'
              obtain rfl := Option.some.inj hd'
              exact Or.inr ⟨f, List.mem_cons_self, v, hv, rfl⟩
            · exact Or.inr ⟨g, List.mem_cons_of_mem _ hg, v, hv, rfl⟩
        rw [heq]
        exact this

/-- **C101** (systematics): the band of a mass bin goes from the smallest to the largest of the data and the values of all files in this mass bin. -/
theorem bandsOf_ok (tol : K) (adj : K → K → K) (cs ds : List K) (hd : ds.length = cs.length) (files : List (List (K × K))) (out : List (K × K))
    (h : bandsOf tol adj cs ds files = .ok out) :
    out.length = cs.length ∧ ∀ (m : ℕ) (d : K) (b : K × K), ds[m]? = some d → out[m]? = some b →
      Hull ({d} ∪ { r | ∃ f ∈ files, ∃ v, ValueAt tol cs f m v ∧ r = adj d v }) b := by
  obtain ⟨h1, _, h3⟩ := sysFiles_ok tol adj cs ds hd files (ds.map fun d => (d, d)) out (fun m => { r | ds[m]? = some r })
    (by rw [List.length_map]; exact hd) (by
      intro m b hb
      rw [List.getElem?_map] at hb
      obtain ⟨d, hd', rfl⟩ := Option.map_eq_some_iff.1 hb
      refine ⟨⟨hd', ?_⟩, hd', ?_⟩
      · intro x hx
        have hx' : ds[m]? = some x := hx
        rw [hd'] at hx'
        exact (Option.some.inj hx').le
      · intro x hx
        have hx' : ds[m]? = some x := hx
        rw [hd'] at hx'
        exact (Option.some.inj hx').ge) h
  refine ⟨h1, ?_⟩
  intro m d b hmd hmb
  have := h3 m d b hmd hmb
  have heq : ({ r | ds[m]? = some r } : Set K) = {d} := by
    ext x
    rw [Set.mem_setOf_eq, Set.mem_singleton_iff, hmd]
    exact ⟨fun h => (Option.some.inj h).symm, fun h => h ▸ rfl⟩
  rw [heq] at this
  exact this

theorem sysFiles_done (tol : K) (adj : K → K → K) (cs ds : List K) : ∀ (files : List (List (K × K))) (bands : List (K × K)),
    ((∃ out, sysFiles tol adj cs ds files bands = .ok out) ↔ ∀ f ∈ files, ∃ mp, Mapped tol cs (f.map Prod.fst) mp) ∧
    sysFiles tol adj cs ds files bands ≠ .ub := by
  intro files
  induction files with
  | nil =>
    intro bands
    exact ⟨⟨fun _ f hf => absurd hf List.not_mem_nil, fun _ => ⟨bands, rfl⟩⟩, fun h => (by cases h)⟩
  | cons f fs ih =>
    intro bands
    rw [List.forall_mem_cons]
    cases hc : checkMassBins tol cs (f.map Prod.fst) with
    | ub => exact absurd hc (checkMassBins_not_ub tol cs _)
    | terminate =>
      have he : sysFiles tol adj cs ds (f :: fs) bands = .terminate := by
        unfold sysFiles sysFile
        rw [hc]
      rw [he]
      refine ⟨⟨fun ⟨out, h⟩ => (by cases h), ?_⟩, fun h => (by cases h)⟩
      rintro ⟨⟨mp, hmp⟩, _⟩
      rw [(checkMassBins_ok tol cs _ mp).2 hmp] at hc
      cases hc
    | ok mp =>
      have he : ∃ bands', sysFiles tol adj cs ds (f :: fs) bands = sysFiles tol adj cs ds fs bands' := by
        cases hs : sysFile tol adj cs ds f bands with
        | terminate => unfold sysFile at hs; rw [hc] at hs; cases hs
        | ub => unfold sysFile at hs; rw [hc] at hs; cases hs
        | ok b' =>
          refine ⟨b', ?_⟩
          conv_lhs => unfold sysFiles
          rw [hs]
      obtain ⟨bands', he⟩ := he
      rw [he]
      obtain ⟨h1, h2⟩ := ih bands'
      refine ⟨?_, h2⟩
      rw [h1]
      exact ⟨fun h => ⟨⟨mp, (checkMassBins_ok tol cs _ mp).1 hc⟩, h⟩, fun h => h.2⟩

/-- **C101** (systematics): they are read if and only if every file has exactly the mass bins of the data, once. -/
theorem bandsOf_done (tol : K) (adj : K → K → K) (cs ds : List K) (files : List (List (K × K))) :
    ((∃ out, bandsOf tol adj cs ds files = .ok out) ↔ ∀ f ∈ files, ∃ mp, Mapped tol cs (f.map Prod.fst) mp) ∧
    bandsOf tol adj cs ds files ≠ .ub := sysFiles_done tol adj cs ds files _

end Rpwa.FitRead
