import Verif.Lemmas.ResFitRead

/-! # The mapping of decay channels to couplings and branchings -/

namespace Rpwa.ResFit

open Spec

/-- name and bins of channel `i` -/
def chName (chans : List (Name × List ℕ)) (i : ℕ) : Name := (chans.getD i ([], [])).1

/-- bins of channel `i` -/
def chBins (chans : List (Name × List ℕ)) (i : ℕ) : List ℕ := (chans.getD i ([], [])).2

/-- state after `n` channels if branchings are used -/
structure MapInv (chans : List (Name × List ℕ)) (n : ℕ) (st : MapSt) : Prop where
  lenC : st.maps.chanCoup.length = n
  lenB : st.maps.chanBr.length = n
  nrBr : st.maps.nrBr = n
  lenFrom : st.maps.fromCoup.length = st.maps.nrCoup
  lenFix : st.maps.brFixed.length = n
  br : ∀ i < n, st.maps.chanBr.getD i 0 = i
  coup : ∀ i < n, st.maps.chanCoup.getD i 0 < st.maps.nrCoup
  master : ∀ i < n, st.maps.fromCoup.getD (st.maps.chanCoup.getD i 0) 0 ≤ i ∧
    waveQN (chName chans (st.maps.fromCoup.getD (st.maps.chanCoup.getD i 0) 0))
      = waveQN (chName chans i)
  share : ∀ i < n, ∀ j < n, st.maps.chanCoup.getD i 0 = st.maps.chanCoup.getD j 0 ↔
    waveQN (chName chans i) = waveQN (chName chans j)
  used : ∀ k < st.maps.nrCoup, ∃ i < n, st.maps.chanCoup.getD i 0 = k
  fix : ∀ i < n, st.maps.brFixed.getD i false = true ↔
    ∀ j < i, waveQN (chName chans j) ≠ waveQN (chName chans i)
  qn : ∀ q b k, st.qn.lookup (q, b) = some k ↔
    ∃ i < n, waveQN (chName chans i) = q ∧ b ∈ chBins chans i ∧ st.maps.chanCoup.getD i 0 = k

theorem qnLoop_new (q : Name) (bins : List ℕ) (i : ℕ) (s : QnSt) (hnd : bins.Nodup)
    (h1 : s.readCoup = true) (h2 : s.fixedBr = true) (h3 : i = 0 ∨ s.readBr = true)
    (hl : ∀ b ∈ bins, s.qn.lookup (q, b) = none) :
    ((bins.zipIdx i).map fun x => (x.2, x.1)).foldlM (qnStep q) s
      = some { readCoup := true, readBr := s.readBr || !bins.isEmpty, fixedBr := true, idx := s.idx,
               qn := s.qn ++ bins.map fun b => ((q, b), s.idx) } := by
  induction bins generalizing i s with
  | nil =>
    rw [List.zipIdx_nil, List.map_nil, List.foldlM_nil]
    cases s
    simp_all
  | cons b bins ih =>
    rw [List.nodup_cons] at hnd
    rw [List.zipIdx_cons, List.map_cons, List.foldlM_cons]
    have hstep : qnStep q s (i, b) = some ⟨true, true, true, s.idx, s.qn ++ [((q, b), s.idx)]⟩ := by
      unfold qnStep
      dsimp only
      rw [hl b List.mem_cons_self]
      dsimp only
      rw [if_neg, if_neg]
      · rintro ⟨hi, h⟩
        rcases h3 with h3 | h3
        · omega
        · rw [h3] at h; cases h
      · rintro ⟨_, h | h⟩
        · rw [h1] at h; cases h
        · rw [h2] at h; cases h
    dsimp only
    rw [hstep]
    refine (ih (i + 1) _ hnd.2 rfl rfl (Or.inr rfl) ?_).trans ?_
    · intro b' hb'
      dsimp only
      rw [List.lookup_append, hl b' (List.mem_cons_of_mem _ hb')]
      have hne : ((q, b') == (q, b)) = false := by
        rw [beq_eq_false_iff_ne]
        intro e
        cases e
        exact hnd.1 hb'
      simp [List.lookup_cons, hne]
    · simp

theorem qnLoop_old (q : Name) (bins : List ℕ) (i k : ℕ) (s : QnSt)
    (h : i = 0 ∨ (s.readCoup = false ∧ s.fixedBr = false ∧ s.idx = k ∧ s.readBr = true))
    (hl : ∀ b ∈ bins, s.qn.lookup (q, b) = some k) (hne : bins ≠ []) :
    ((bins.zipIdx i).map fun x => (x.2, x.1)).foldlM (qnStep q) s
      = some { readCoup := false, readBr := true, fixedBr := false, idx := k, qn := s.qn } := by
  induction bins generalizing i s with
  | nil => exact absurd rfl hne
  | cons b bins ih =>
    rw [List.zipIdx_cons, List.map_cons, List.foldlM_cons]
    have hstep : qnStep q s (i, b) = some ⟨false, true, false, k, s.qn⟩ := by
      unfold qnStep
      dsimp only
      rw [hl b List.mem_cons_self]
      dsimp only
      rcases h with h | ⟨h1, h2, h3, h4⟩
      · rw [if_neg (by omega), if_neg (by omega)]
      · rw [if_neg, if_neg]
        · rw [h4]; simp
        · rw [h1, h2, h3]; simp
    dsimp only
    rw [hstep]
    cases bins with
    | nil => rfl
    | cons b' bins =>
      exact ih (i + 1) _ (Or.inr ⟨rfl, rfl, rfl, rfl⟩)
        (fun b'' hb'' => hl b'' (List.mem_cons_of_mem _ hb'')) (by simp)

theorem lookup_map_pair (q q' : Name) (bins : List ℕ) (b v : ℕ) :
    (bins.map fun b => ((q, b), v)).lookup (q', b) = if q' = q ∧ b ∈ bins then some v else none := by
  induction bins with
  | nil => simp
  | cons b' bins ih =>
    rw [List.map_cons, List.lookup_cons]
    by_cases h : (q', b) = (q, b')
    · cases h
      simp
    · have hb : ((q', b) == (q, b')) = false := by rw [beq_eq_false_iff_ne]; exact h
      rw [hb, ih]
      dsimp only
      by_cases hq : q' = q
      · have : b ≠ b' := fun e => h (by rw [hq, e])
        simp [hq, this]
      · simp [hq]

theorem getD_snoc {α : Type} (l : List α) (x d : α) (i : ℕ) :
    (l ++ [x]).getD i d = if i = l.length then x else l.getD i d := by
  rw [List.getD_eq_getElem?_getD, List.getD_eq_getElem?_getD]
  rcases Nat.lt_trichotomy i l.length with h | h | h
  · rw [List.getElem?_append_left h, if_neg (by omega)]
  · subst h; simp
  · rw [if_neg (by omega), List.getElem?_eq_none (by rw [List.length_append, List.length_singleton]; omega),
      List.getElem?_eq_none (by omega)]

theorem mapInv_step {chans : List (Name × List ℕ)} {n : ℕ} (hn : n < chans.length)
    (hne : ∀ i < chans.length, chBins chans i ≠ []) (hnd : ∀ i < chans.length, (chBins chans i).Nodup)
    (hsame : ∀ i < chans.length, ∀ j < chans.length,
      waveQN (chName chans i) = waveQN (chName chans j) → ∀ b, b ∈ chBins chans i ↔ b ∈ chBins chans j)
    {st st' : MapSt} (h : MapInv chans n st)
    (he : mapStep true st n (chName chans n) (chBins chans n) = some st') :
    MapInv chans (n + 1) st' := by
  unfold mapStep at he
  split at he
  · cases he
  dsimp only at he
  rw [if_pos rfl] at he
  by_cases hold : ∃ i < n, waveQN (chName chans i) = waveQN (chName chans n)
  · -- the quantum numbers are known
    obtain ⟨i0, hi0, hq0⟩ := hold
    have hb0 := hsame i0 (by omega) n hn hq0
    have hloop := qnLoop_old (waveQN (chName chans n)) (chBins chans n) 0
      (st.maps.chanCoup.getD i0 0) ⟨true, false, true, st.maps.nrCoup, st.qn⟩ (Or.inl rfl)
      (fun b hb => (h.qn _ b _).mpr ⟨i0, hi0, hq0, (hb0 b).mpr hb, rfl⟩) (hne n hn)
    unfold qnLoop at he
    rw [hloop, Option.bind_some] at he
    unfold pushChannel at he
    rw [if_neg (by rintro ⟨h, _⟩; cases h)] at he
    simp only [Option.some.injEq, Bool.false_eq_true, if_true, if_false] at he
    subst he
    have hC : ∀ i, (st.maps.chanCoup ++ [st.maps.chanCoup.getD i0 0]).getD i 0
        = if i = n then st.maps.chanCoup.getD i0 0 else st.maps.chanCoup.getD i 0 := by
      intro i; rw [getD_snoc, h.lenC]
    have hss : ∀ i < n, waveQN (chName chans i) = waveQN (chName chans n) ↔
        st.maps.chanCoup.getD i 0 = st.maps.chanCoup.getD i0 0 := by
      intro i hi
      rw [h.share i hi i0 hi0, hq0]
    constructor <;> dsimp only
    · simp [h.lenC]
    · simp [h.lenB]
    · simp [h.nrBr]
    · simp [h.lenFrom]
    · simp [h.lenFix]
    · intro i hi
      rw [getD_snoc, h.lenB]
      split
      · rw [h.nrBr]; omega
      · exact h.br i (by omega)
    · intro i hi
      rw [hC]
      split
      · exact h.coup i0 hi0
      · exact h.coup i (by omega)
    · intro i hi
      rw [hC]
      split
      · rename_i e
        subst e
        obtain ⟨m1, m2⟩ := h.master i0 hi0
        exact ⟨by simpa using le_trans m1 hi0.le, by simpa using m2.trans hq0⟩
      · simpa using h.master i (by omega)
    · intro i hi j hj
      rw [hC, hC]
      by_cases ei : i = n
      · by_cases ej : j = n
        · simp [ei, ej]
        · rw [if_pos ei, if_neg ej, ei, eq_comm, ← hss j (by omega), eq_comm]
      · by_cases ej : j = n
        · rw [if_neg ei, if_pos ej, ej, hss i (by omega)]
        · rw [if_neg ei, if_neg ej]; exact h.share i (by omega) j (by omega)
    · intro k hk
      obtain ⟨i, hi, e⟩ := h.used k (by simpa using hk)
      exact ⟨i, by omega, by rw [hC, if_neg (by omega), e]⟩
    · intro i hi
      rw [getD_snoc, h.lenFix]
      split
      · rename_i e
        subst e
        simp only [Bool.false_eq_true, false_iff, not_forall, not_not]
        exact ⟨i0, hi0, hq0⟩
      · exact h.fix i (by omega)
    · intro q b k
      rw [h.qn]
      constructor
      · rintro ⟨i, hi, e1, e2, e3⟩
        exact ⟨i, by omega, e1, e2, by rw [hC, if_neg (by omega), e3]⟩
      · rintro ⟨i, hi, e1, e2, e3⟩
        rw [hC] at e3
        by_cases ei : i = n
        · subst ei
          rw [if_pos rfl] at e3
          exact ⟨i0, hi0, hq0.trans e1, (hb0 b).mpr e2, e3⟩
        · rw [if_neg ei] at e3
          exact ⟨i, by omega, e1, e2, e3⟩
  · -- new quantum numbers
    have hnew : ∀ i < n, waveQN (chName chans i) ≠ waveQN (chName chans n) :=
      fun i hi e => hold ⟨i, hi, e⟩
    have hloop := qnLoop_new (waveQN (chName chans n)) (chBins chans n) 0
      ⟨true, false, true, st.maps.nrCoup, st.qn⟩ (hnd n hn) rfl rfl (Or.inl rfl)
      (fun b _ => by
        cases hlk : st.qn.lookup (waveQN (chName chans n), b) with
        | none => rfl
        | some k =>
          obtain ⟨i, hi, e, _⟩ := (h.qn _ b k).mp hlk
          exact absurd e (hnew i hi))
    have hemp : (chBins chans n).isEmpty = false := by
      cases hb : chBins chans n with
      | nil => exact absurd hb (hne n hn)
      | cons _ _ => rfl
    unfold qnLoop at he
    rw [hloop, Option.bind_some] at he
    unfold pushChannel at he
    rw [if_neg (by rintro ⟨_, h⟩; exact h rfl)] at he
    simp only [Option.some.injEq, hemp, Bool.not_false, Bool.or_true, if_true] at he
    subst he
    have hC : ∀ i, (st.maps.chanCoup ++ [st.maps.nrCoup]).getD i 0
        = if i = n then st.maps.nrCoup else st.maps.chanCoup.getD i 0 := by
      intro i; rw [getD_snoc, h.lenC]
    have hF : ∀ k, (st.maps.fromCoup ++ [n]).getD k 0
        = if k = st.maps.nrCoup then n else st.maps.fromCoup.getD k 0 := by
      intro k; rw [getD_snoc, h.lenFrom]
    constructor <;> dsimp only
    · simp [h.lenC]
    · simp [h.lenB]
    · simp [h.nrBr]
    · simp [h.lenFrom]
    · simp [h.lenFix]
    · intro i hi
      rw [getD_snoc, h.lenB]
      split
      · rw [h.nrBr]; omega
      · exact h.br i (by omega)
    · intro i hi
      rw [hC]
      split
      · omega
      · have := h.coup i (by omega); omega
    · intro i hi
      rw [hC]
      split
      · rename_i e
        rw [hF, if_pos rfl, e]
        exact ⟨le_rfl, rfl⟩
      · have := h.coup i (by omega)
        rw [hF, if_neg (by omega)]
        exact h.master i (by omega)
    · intro i hi j hj
      rw [hC, hC]
      by_cases ei : i = n
      · by_cases ej : j = n
        · simp [ei, ej]
        · rw [if_pos ei, if_neg ej, ei]
          have := h.coup j (by omega)
          constructor
          · intro e; omega
          · intro e; exact absurd e.symm (hnew j (by omega))
      · by_cases ej : j = n
        · rw [if_neg ei, if_pos ej, ej]
          have := h.coup i (by omega)
          constructor
          · intro e; omega
          · intro e; exact absurd e (hnew i (by omega))
        · rw [if_neg ei, if_neg ej]; exact h.share i (by omega) j (by omega)
    · intro k hk
      by_cases e : k = st.maps.nrCoup
      · exact ⟨n, by omega, by rw [hC, if_pos rfl, e]⟩
      · obtain ⟨i, hi, e⟩ := h.used k (by omega)
        exact ⟨i, by omega, by rw [hC, if_neg (by omega), e]⟩
    · intro i hi
      rw [getD_snoc, h.lenFix]
      split
      · rename_i e
        subst e
        simp only [true_iff]
        exact hnew
      · exact h.fix i (by omega)
    · intro q b k
      rw [List.lookup_append, lookup_map_pair]
      constructor
      · intro hl
        cases hlk : st.qn.lookup (q, b) with
        | some k' =>
          rw [hlk] at hl
          simp only [Option.some_or, Option.some.injEq] at hl
          subst hl
          obtain ⟨i, hi, e1, e2, e3⟩ := (h.qn _ b k').mp hlk
          exact ⟨i, by omega, e1, e2, by rw [hC, if_neg (by omega), e3]⟩
        | none =>
          rw [hlk, Option.none_or] at hl
          split at hl
          · rename_i hqb
            cases hl
            exact ⟨n, by omega, hqb.1.symm, hqb.2, by rw [hC, if_pos rfl]⟩
          · cases hl
      · rintro ⟨i, hi, e1, e2, e3⟩
        rw [hC] at e3
        by_cases ei : i = n
        · subst ei
          rw [if_pos rfl] at e3
          have : st.qn.lookup (q, b) = none := by
            cases hlk : st.qn.lookup (q, b) with
            | none => rfl
            | some k' =>
              obtain ⟨j, hj, e, _⟩ := (h.qn _ b k').mp hlk
              exact absurd (e.trans e1.symm) (hnew j hj)
          rw [this, Option.none_or, if_pos ⟨e1.symm, e2⟩, e3]
        · rw [if_neg ei] at e3
          rw [(h.qn q b k).mpr ⟨i, by omega, e1, e2, e3⟩, Option.some_or]

/-- state after `n` channels if branchings are not used -/
structure MapInv0 (n : ℕ) (st : MapSt) : Prop where
  chanCoup : st.maps.chanCoup = List.range n
  chanBr : st.maps.chanBr = List.replicate n 0
  nrCoup : st.maps.nrCoup = n
  fromCoup : st.maps.fromCoup = List.range n
  nrBr : st.maps.nrBr = 0
  fromBr : st.maps.fromBr = []
  brFixed : st.maps.brFixed = []

theorem mapInv0_step {n : ℕ} {name : Name} {bins : List ℕ} {st st' : MapSt} (h : MapInv0 n st)
    (he : mapStep false st n name bins = some st') : MapInv0 (n + 1) st' := by
  unfold mapStep at he
  split at he
  · cases he
  dsimp only at he
  rw [if_neg (by decide), Option.bind_some] at he
  unfold pushChannel at he
  rw [if_neg (by rintro ⟨_, h⟩; exact h rfl)] at he
  simp only [Option.some.injEq] at he
  subst he
  constructor <;> dsimp only
  · rw [h.chanCoup, h.nrCoup, List.range_succ]
  · rw [h.chanBr, h.nrBr, List.replicate_succ']
  · rw [if_pos trivial, h.nrCoup]
  · rw [if_pos trivial, h.fromCoup, List.range_succ]
  · rw [if_neg (by decide), h.nrBr]
  · rw [if_neg (by decide), h.fromBr]
  · rw [if_neg (by decide), h.brFixed]

theorem foldlM_zipIdx_inv {α β : Type} (P : ℕ → β → Prop) (f : β → α × ℕ → Option β) (l : List α)
    (hf : ∀ n (hn : n < l.length) a a', P n a → f a (l[n], n) = some a' → P (n + 1) a')
    (a a' : β) (ha : P 0 a) (h : l.zipIdx.foldlM f a = some a') : P l.length a' := by
  have main : ∀ (l' : List α) (k : ℕ), k + l'.length = l.length → (∀ i (hi : i < l'.length),
      ∃ h : k + i < l.length, l[k + i] = l'[i]) → ∀ a a', P k a →
      (l'.zipIdx k).foldlM f a = some a' → P l.length a' := by
    intro l'
    induction l' with
    | nil =>
      intro k hk _ a a' ha h
      rw [List.zipIdx_nil, List.foldlM_nil] at h
      cases h
      simp only [List.length_nil, Nat.add_zero] at hk
      exact hk ▸ ha
    | cons x l' ih =>
      intro k hk hi a a' ha h
      rw [List.zipIdx_cons, List.foldlM_cons] at h
      cases hx : f a (x, k) with
      | none => rw [hx] at h; cases h
      | some a1 =>
        rw [hx] at h
        obtain ⟨hk0, e0⟩ := hi 0 (by simp)
        have e0 : l[k]'(by simpa using hk0) = x := by simpa using e0
        refine ih (k + 1) (by rw [List.length_cons] at hk; omega) ?_ a1 a'
          (hf k (by simpa using hk0) a a1 ha (by rw [e0]; exact hx)) h
        intro i hi'
        obtain ⟨h1, h2⟩ := hi (i + 1) (by rw [List.length_cons]; omega)
        refine ⟨by omega, ?_⟩
        have : k + 1 + i = k + (i + 1) := by omega
        simp only [this, h2, List.getElem_cons_succ]
  exact main l 0 (by omega) (fun i hi => ⟨by omega, by simp⟩) a a' ha h

/-- The mapping if branchings are used: each channel has its own branching; channels with the same
quantum numbers share a coupling, the branching of the first of them is fixed. -/
structure MapsBr (chans : List (Name × List ℕ)) (m : Maps) : Prop where
  coup : ∀ i < chans.length, m.chanCoup.getD i 0 < m.nrCoup
  master : ∀ i < chans.length, m.fromCoup.getD (m.chanCoup.getD i 0) 0 ≤ i ∧
    waveQN (chName chans (m.fromCoup.getD (m.chanCoup.getD i 0) 0)) = waveQN (chName chans i)
  share : ∀ i < chans.length, ∀ j < chans.length, m.chanCoup.getD i 0 = m.chanCoup.getD j 0 ↔
    waveQN (chName chans i) = waveQN (chName chans j)
  used : ∀ k < m.nrCoup, ∃ i < chans.length, m.chanCoup.getD i 0 = k
  br : ∀ i < chans.length, m.chanBr.getD i 0 = i
  nrBr : m.nrBr = chans.length
  fix : ∀ i < chans.length, m.brFixed.getD i false = true ↔
    ∀ j < i, waveQN (chName chans j) ≠ waveQN (chName chans i)

theorem mkMaps_branch {chans : List (Name × List ℕ)} (hlen : chans.length > 1)
    (hne : ∀ i < chans.length, chBins chans i ≠ []) (hnd : ∀ i < chans.length, (chBins chans i).Nodup)
    (hsame : ∀ i < chans.length, ∀ j < chans.length,
      waveQN (chName chans i) = waveQN (chName chans j) → ∀ b, b ∈ chBins chans i ↔ b ∈ chBins chans j)
    {m : Maps} (h : mkMaps true chans = some m) : MapsBr chans m := by
  unfold mkMaps at h
  dsimp only at h
  obtain ⟨st, h, e⟩ := Option.map_eq_some_iff.mp h
  have inv := foldlM_zipIdx_inv (fun n st => n ≤ chans.length ∧ MapInv chans n st) _ chans
    (fun n hn a a' ha he => by
      refine ⟨hn, mapInv_step hn hne hnd hsame ha.2 ?_⟩
      have h1 : chName chans n = chans[n].1 := by
        unfold chName; rw [List.getD_eq_getElem _ _ hn]
      have h2 : chBins chans n = chans[n].2 := by
        unfold chBins; rw [List.getD_eq_getElem _ _ hn]
      rw [h1, h2]
      rw [decide_eq_true hlen, Bool.and_true] at he
      exact he) _ st ⟨by omega, by
        constructor <;> simp⟩ h
  have inv := inv.2
  rw [if_neg (by rw [inv.nrBr]; omega)] at e
  subst e
  exact ⟨inv.coup, inv.master, inv.share, inv.used, inv.br, inv.nrBr, inv.fix⟩

theorem mkMaps_plain {ub : Bool} {chans : List (Name × List ℕ)}
    (hub : ub = false ∨ chans.length ≤ 1) {m : Maps} (h : mkMaps ub chans = some m) :
    m = ⟨List.range chans.length, List.replicate chans.length 0, chans.length,
      List.range chans.length, 1, [0], [true]⟩ := by
  unfold mkMaps at h
  dsimp only at h
  obtain ⟨st, h, e⟩ := Option.map_eq_some_iff.mp h
  have hb : (ub && decide (chans.length > 1)) = false := by
    rcases hub with rfl | h
    · rfl
    · rw [decide_eq_false (by omega), Bool.and_false]
  have inv := foldlM_zipIdx_inv (fun n st => MapInv0 n st) _ chans
    (fun n hn a a' ha he => by
      rw [hb] at he
      exact mapInv0_step ha he) _ st (by constructor <;> rfl) h
  rw [if_pos inv.nrBr] at e
  subst e
  rw [Maps.mk.injEq]
  refine ⟨inv.chanCoup, inv.chanBr, inv.nrCoup, inv.fromCoup, ?_, ?_, ?_⟩
  · rw [inv.nrBr]
  · rw [inv.fromBr]; rfl
  · rw [inv.brFixed]; rfl

end Rpwa.ResFit
