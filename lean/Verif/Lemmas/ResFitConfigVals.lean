import Verif.Lemmas.ResFitConfigComp
import Verif.Props.ResonanceFit

/-! Lemmas for C77: values of couplings and branchings, final-state mass dependence. -/

namespace Rpwa.ResCfg

open ResFit (Name Params Input Channel Maps Component Shape ShapeCfg Formula Fsmd Model)
open Pick (bind_ok_iff mapM_ok_iff)

/-! ### the mapping of channels to couplings and branchings -/

/-- what the reader and the writer need to know of the mapping for `n` channels -/
structure MapsG (n : ℕ) (m : Maps) : Prop where
  master : ∀ k < m.nrCoup, m.fromCoup.getD k 0 < n ∧ m.chanCoup.getD (m.fromCoup.getD k 0) 0 = k
  br : (1 < m.nrBr ∧ ∀ ch < n, m.fromBr.getD (m.chanBr.getD ch 0) 0 = ch) ∨
    (m.nrBr = 1 ∧ (∀ ch < n, m.chanBr.getD ch 0 = 0) ∧ m.brFixed.getD 0 false = true)
  all : 1 < m.nrBr → m.nrBr = n ∧ ∀ ch < n, m.chanBr.getD ch 0 = ch

theorem qnLoop_readBr {q : Name} : ∀ (l : List (ℕ × ℕ)) (s r : ResFit.QnSt),
    (s.readBr = true ∨ l ≠ []) → l.foldlM (ResFit.qnStep q) s = some r → r.readBr = true
  | [], s, r, h, he => by
    cases he
    exact h.resolve_right (fun h => h rfl)
  | x :: l, s, r, _, he => by
    rw [List.foldlM_cons] at he
    obtain ⟨s', h1, h2⟩ := Option.bind_eq_some_iff.mp he
    refine qnLoop_readBr l s' r (Or.inl ?_) h2
    unfold ResFit.qnStep at h1
    split at h1
    · split at h1
      · cases h1
      · split at h1
        · cases h1
        · cases h1; rfl
    · split at h1
      · cases h1
      · split at h1
        · cases h1
        · cases h1; rfl

/-- state of the loop over the channels when branchings are used -/
structure MapsLoop (n : ℕ) (m : Maps) : Prop where
  lenC : m.chanCoup.length = n
  lenF : m.fromCoup.length = m.nrCoup
  master : ∀ k < m.nrCoup, m.fromCoup.getD k 0 < n ∧ m.chanCoup.getD (m.fromCoup.getD k 0) 0 = k
  chanBr : m.chanBr = List.range n
  fromBr : m.fromBr = List.range n
  nrBr : m.nrBr = n

theorem mapsLoop_step {n : ℕ} {name : Name} {bins : List ℕ} (hb : bins ≠ []) {st st' : ResFit.MapSt}
    (h : MapsLoop n st.maps) (he : ResFit.mapStep true st n name bins = some st') :
    MapsLoop (n + 1) st'.maps := by
  unfold ResFit.mapStep at he
  split at he
  · cases he
  dsimp only at he
  rw [if_pos rfl] at he
  obtain ⟨r, hr, he⟩ := Option.bind_eq_some_iff.mp he
  have hrb : r.readBr = true := by
    unfold ResFit.qnLoop at hr
    refine qnLoop_readBr _ _ _ (Or.inr ?_) hr
    intro e
    rw [List.map_eq_nil_iff, List.zipIdx_eq_nil_iff] at e
    exact hb e
  unfold ResFit.pushChannel at he
  split at he
  · cases he
  rename_i hidx
  cases he
  dsimp only
  refine ⟨by rw [List.length_append, h.lenC]; rfl, ?_, ?_, by rw [h.chanBr, h.nrBr, List.range_succ],
    by rw [h.fromBr, List.range_succ], by rw [h.nrBr]⟩
  · by_cases hc : r.readCoup = true
    · rw [if_pos hc, if_pos hc, List.length_append, h.lenF]; rfl
    · rw [if_neg hc, if_neg hc]; exact h.lenF
  · by_cases hc : r.readCoup = true
    · rw [if_pos hc, if_pos hc]
      have hi : r.idx = st.maps.nrCoup := by
        by_contra hne
        exact hidx ⟨hc, hne⟩
      intro k hk
      dsimp only at hk ⊢
      rw [ResFit.getD_snoc, h.lenF]
      by_cases hkn : k = st.maps.nrCoup
      · rw [if_pos hkn, ResFit.getD_snoc, h.lenC, if_pos rfl]
        exact ⟨Nat.lt_succ_self n, by rw [hi, hkn]⟩
      · rw [if_neg hkn, ResFit.getD_snoc, h.lenC]
        obtain ⟨h1, h2⟩ := h.master k (by omega)
        rw [if_neg (by omega)]
        exact ⟨by omega, h2⟩
    · rw [if_neg hc, if_neg hc]
      intro k hk
      dsimp only at hk ⊢
      obtain ⟨h1, h2⟩ := h.master k hk
      rw [ResFit.getD_snoc, h.lenC, if_neg (by omega)]
      exact ⟨by omega, h2⟩

theorem mapsG {ub : Bool} {chans : List (Name × List ℕ)} {m : Maps}
    (hb : ∀ c ∈ chans, c.2 ≠ []) (h : ResFit.mkMaps ub chans = some m) : MapsG chans.length m := by
  by_cases hbr : ub = true ∧ chans.length > 1
  · have h' := h
    unfold ResFit.mkMaps at h
    dsimp only at h
    obtain ⟨st, h, e⟩ := Option.map_eq_some_iff.mp h
    have hbb : (ub && decide (chans.length > 1)) = true := by
      rw [hbr.1, Bool.true_and, decide_eq_true hbr.2]
    rw [hbb] at h
    have inv := ResFit.foldlM_zipIdx_inv (fun n st => MapsLoop n st.maps) _ chans
      (fun n hn a a' ha he => mapsLoop_step (hb _ (List.getElem_mem hn)) ha he) _ st
      ⟨rfl, rfl, fun k hk => absurd hk (Nat.not_lt_zero k), rfl, rfl, rfl⟩ h
    rw [if_neg (by rw [inv.nrBr]; omega)] at e
    subst e
    have hg : ∀ k < chans.length, (List.range chans.length).getD k 0 = k := by
      intro k hk
      rw [List.getD_eq_getElem _ _ (by rw [List.length_range]; exact hk), List.getElem_range]
    refine ⟨inv.master, Or.inl ⟨by rw [inv.nrBr]; exact hbr.2, fun ch hch => ?_⟩,
      fun _ => ⟨inv.nrBr, fun ch hch => by rw [inv.chanBr, hg ch hch]⟩⟩
    rw [inv.chanBr, inv.fromBr, hg ch hch, hg ch hch]
  · have := ResFit.mkMaps_plain (ub := ub) (chans := chans) (by
      by_cases hu : ub = true
      · exact Or.inr (Nat.le_of_not_lt (fun h => hbr ⟨hu, h⟩))
      · exact Or.inl (by simpa using hu)) h
    subst this
    have hg : ∀ k < chans.length, (List.range chans.length).getD k 0 = k := by
      intro k hk
      rw [List.getD_eq_getElem _ _ (by rw [List.length_range]; exact hk), List.getElem_range]
    refine ⟨fun k hk => ?_, Or.inr ⟨rfl, fun ch hch => ?_, rfl⟩, fun h => absurd h (Nat.lt_irrefl 1)⟩
    · dsimp only at hk ⊢
      rw [hg k hk]
      exact ⟨hk, hg k hk⟩
    · dsimp only
      rw [List.getD_eq_getElem _ _ (by rw [List.length_replicate]; exact hch), List.getElem_replicate]

theorem CompOk.mapsG {S : Setup} {I : Input} {tMeans : List ℝ} {id : ℕ} {c : Comp}
    (h : CompOk S I tMeans id c) : MapsG c.core.channels.length c.core.maps := by
  obtain ⟨_, _, _, _, h5, h6, _, _⟩ := build_id h.built
  have := ResCfg.mapsG (fun x hx => by
    obtain ⟨ch, hch, rfl⟩ := List.mem_map.mp hx
    exact ResFit.readChannels_bins h5 ch hch) h6
  rw [List.length_map] at this
  exact this

/-! ### couplings and branchings -/

/-- `P'` has been made from `P` by writing values of `T` to row `id`: couplings -/
def CoupFrom (T : Params) (id : ℕ) (P P' : Params) : Prop :=
  ∀ i k b, P'.coup i k b = P.coup i k b ∨ (i = id ∧ P'.coup i k b = T.coup i k b)

theorem CoupFrom.refl (T : Params) (id : ℕ) (P : Params) : CoupFrom T id P P := fun _ _ _ => Or.inl rfl

theorem CoupFrom.trans {T : Params} {id : ℕ} {P P' P'' : Params} (h : CoupFrom T id P P')
    (h' : CoupFrom T id P' P'') : CoupFrom T id P P'' := by
  intro i k b
  rcases h' i k b with e | e
  · rw [e]; exact h i k b
  · exact Or.inr e

theorem CoupFrom.keep {T : Params} {id : ℕ} {P P' : Params} (h : CoupFrom T id P P') {k b : ℕ}
    (he : P.coup id k b = T.coup id k b) : P'.coup id k b = T.coup id k b := by
  rcases h id k b with e | e
  · rw [e, he]
  · exact e.2

theorem CoupFrom.other {T : Params} {id : ℕ} {P P' : Params} (h : CoupFrom T id P P') {i : ℕ} (hi : i ≠ id)
    (k b : ℕ) : P'.coup i k b = P.coup i k b := (h i k b).resolve_right fun e => hi e.1

theorem setCoup_from (T P : Params) (id k b : ℕ) : CoupFrom T id P (P.setCoup id k b (T.coup id k b)) := by
  intro i j l
  unfold Params.setCoup
  dsimp only
  split
  · rename_i h
    obtain ⟨rfl, rfl, rfl⟩ := h
    exact Or.inr ⟨rfl, rfl⟩
  · exact Or.inl rfl

theorem setCoup_self (P : Params) (id k b : ℕ) (z : ℂ) : (P.setCoup id k b z).coup id k b = z := by
  unfold Params.setCoup
  dsimp only
  rw [if_pos ⟨rfl, rfl, rfl⟩]

/-- the loop over the couplings of a channel -/
theorem couplings_fold {C : Codec} (hC : C.Faithful) (T : Params) (id k : ℕ) : ∀ (bins : List ℕ) (P : Params),
    ∃ P', (bins.zip (bins.map fun b => wPair C (T.coup id k b).re (T.coup id k b).im)).foldlM
        (fun (P : Params) (x : ℕ × V) => do
          let z ← pair C x.2
          .ok (P.setCoup id k x.1 ⟨z.1, z.2⟩)) P = Outcome.ok P' ∧
      P'.par = P.par ∧ P'.br = P.br ∧ CoupFrom T id P P' ∧ ∀ b ∈ bins, P'.coup id k b = T.coup id k b
  | [], P => ⟨P, rfl, rfl, rfl, .refl _ _ _, fun _ h => absurd h List.not_mem_nil⟩
  | b :: bins, P => by
    obtain ⟨P', e, h1, h2, h3, h4⟩ := couplings_fold hC T id k bins (P.setCoup id k b (T.coup id k b))
    refine ⟨P', ?_, h1, h2, (setCoup_from T P id k b).trans h3, ?_⟩
    · rw [List.map_cons, List.zip_cons_cons, List.foldlM_cons]
      dsimp only
      rw [pair_wPair hC, Outcome.ok_bind, Outcome.ok_bind]
      exact e
    · intro b' hb'
      rcases List.mem_cons.mp hb' with rfl | hb'
      · exact h3.keep (setCoup_self _ _ _ _ _)
      · exact h4 b' hb'

theorem writeChan_couplings (C : Codec) (c : Comp) (P : Params) (ch : ℕ) : ∃ l, writeChan C c P ch = .map l ∧
    (c.core.maps.fromCoup.getD (c.core.maps.chanCoup.getD ch 0) 0 = ch → l.lookup kCouplings
      = some (.seq ((c.core.chan ch).bins.map fun b =>
        wPair C (P.coup c.core.id (c.core.maps.chanCoup.getD ch 0) b).re
          (P.coup c.core.id (c.core.maps.chanCoup.getD ch 0) b).im))) ∧
    (c.core.maps.nrBr > 1 → c.core.maps.fromBr.getD (c.core.maps.chanBr.getD ch 0) 0 = ch →
      l.lookup kBranching = some (wPair C (P.br c.core.id (c.core.maps.chanBr.getD ch 0)).re
        (P.br c.core.id (c.core.maps.chanBr.getD ch 0)).im)) := by
  refine ⟨_, rfl, fun h => ?_, fun h1 h2 => ?_⟩
  · rw [if_pos h]
    rfl
  · rw [if_pos h1, if_pos h2]
    split_ifs <;> rfl

theorem readCouplings_write {C : Codec} (hC : C.Faithful) (c : Comp) (T : Params) (ch : ℕ) (P : Params) :
    ∃ P', readCouplings C c.core ch (writeChan C c T ch) P = .ok P' ∧ P'.par = P.par ∧ P'.br = P.br ∧
      CoupFrom T c.core.id P P' ∧
      (c.core.maps.fromCoup.getD (c.core.maps.chanCoup.getD ch 0) 0 = ch → ∀ b ∈ (c.core.chan ch).bins,
        P'.coup c.core.id (c.core.maps.chanCoup.getD ch 0) b
          = T.coup c.core.id (c.core.maps.chanCoup.getD ch 0) b) := by
  unfold readCouplings
  by_cases h : c.core.maps.fromCoup.getD (c.core.maps.chanCoup.getD ch 0) 0 = ch
  · rw [if_pos h]
    obtain ⟨l, hl, h1, _⟩ := writeChan_couplings C c T ch
    obtain ⟨P', e, h2, h3, h4, h5⟩ := couplings_fold hC T c.core.id (c.core.maps.chanCoup.getD ch 0)
      (c.core.chan ch).bins P
    refine ⟨P', ?_, h2, h3, h4, fun _ => h5⟩
    rw [hl, mand_map _ (h1 h)]
    show (Outcome.ok ((c.core.chan ch).bins.map _) >>= _) = _
    rw [Outcome.ok_bind, if_neg (by rw [List.length_map]; exact not_not.mpr rfl)]
    exact e
  · rw [if_neg h]
    exact ⟨P, rfl, rfl, rfl, .refl _ _ _, fun h' => absurd h' h⟩

/-- the value a branching has after reading: 1 if it is fixed -/
noncomputable def brTarget (m : Maps) (T : Params) (id j : ℕ) : ℂ :=
  if m.brFixed.getD j false then 1 else T.br id j

/-- `P'` has been made from `P` by writing branchings of row `id` -/
def BrFrom (m : Maps) (T : Params) (id : ℕ) (P P' : Params) : Prop :=
  ∀ i j, P'.br i j = P.br i j ∨ (i = id ∧ P'.br i j = brTarget m T id j)

theorem BrFrom.keep {m : Maps} {T : Params} {id : ℕ} {P P' : Params} (h : BrFrom m T id P P') {j : ℕ}
    (he : P.br id j = brTarget m T id j) : P'.br id j = brTarget m T id j := by
  rcases h id j with e | e
  · rw [e, he]
  · exact e.2

theorem BrFrom.trans {m : Maps} {T : Params} {id : ℕ} {P P' P'' : Params} (h : BrFrom m T id P P')
    (h' : BrFrom m T id P' P'') : BrFrom m T id P P'' := by
  intro i j
  rcases h' i j with e | e
  · rw [e]; exact h i j
  · exact Or.inr e

theorem setBr_from (m : Maps) (T P : Params) (id j : ℕ) :
    BrFrom m T id P (P.setBr id j (brTarget m T id j)) ∧
      (P.setBr id j (brTarget m T id j)).br id j = brTarget m T id j := by
  unfold Params.setBr
  refine ⟨fun i k => ?_, if_pos ⟨rfl, rfl⟩⟩
  dsimp only
  split
  · rename_i h
    obtain ⟨rfl, rfl⟩ := h
    exact Or.inr ⟨rfl, rfl⟩
  · exact Or.inl rfl

theorem readBranching_write {C : Codec} (hC : C.Faithful) (c : Comp)
    (hm : MapsG c.core.channels.length c.core.maps) (T : Params) {ch : ℕ}
    (hch : ch < c.core.channels.length) (P : Params) :
    ∃ P', readBranching C c.core ch (writeChan C c T ch) P = .ok P' ∧ P'.par = P.par ∧
      P'.coup = P.coup ∧ BrFrom c.core.maps T c.core.id P P' ∧
      P'.br c.core.id (c.core.maps.chanBr.getD ch 0)
        = brTarget c.core.maps T c.core.id (c.core.maps.chanBr.getD ch 0) := by
  unfold readBranching
  obtain ⟨l, hl, _, h1⟩ := writeChan_couplings C c T ch
  rcases hm.br with ⟨hn, hb⟩ | ⟨hn, hb, hf⟩
  · have hs := setBr_from c.core.maps T P c.core.id (c.core.maps.chanBr.getD ch 0)
    refine ⟨_, ?_, ?_, ?_, hs.1, hs.2⟩
    · rw [if_pos hn, if_pos (hb ch hch), hl, mand_map _ (h1 hn (hb ch hch)), pair_wPair hC, Outcome.ok_bind]
      rfl
    · rfl
    · rfl
  · have h0 := hb ch hch
    have hs := setBr_from c.core.maps T P c.core.id 0
    have ht : brTarget c.core.maps T c.core.id 0 = 1 := by unfold brTarget; rw [hf, if_pos rfl]
    rw [ht] at hs
    rw [if_neg (by omega), h0, ht]
    exact ⟨_, rfl, rfl, rfl, hs.1, hs.2⟩

/-- what the store has for one component after reading -/
structure ValuesRead (c : Comp) (T : Params) (P P' : Params) : Prop where
  par : P'.par = P.par
  coupFrom : CoupFrom T c.core.id P P'
  brFrom : BrFrom c.core.maps T c.core.id P P'

theorem readValues_write {C : Codec} (hC : C.Faithful) (c : Comp)
    (hm : MapsG c.core.channels.length c.core.maps) (T P : Params) :
    ∃ P', readValues C c.core ((List.range c.core.channels.length).map (writeChan C c T)) P = .ok P' ∧
      ValuesRead c T P P' ∧
      (∀ k < c.core.maps.nrCoup, ∀ b ∈ c.core.coupBins k, P'.coup c.core.id k b = T.coup c.core.id k b) ∧
      (∀ ch < c.core.channels.length, P'.br c.core.id (c.core.maps.chanBr.getD ch 0)
        = brTarget c.core.maps T c.core.id (c.core.maps.chanBr.getD ch 0)) := by
  have main : ∀ (l : List ℕ) (P : Params), (∀ ch ∈ l, ch < c.core.channels.length) →
      ∃ P', (l.zip (l.map (writeChan C c T))).foldlM (fun (P : Params) (x : ℕ × V) => do
          let P ← readCouplings C c.core x.1 x.2 P
          readBranching C c.core x.1 x.2 P) P = Outcome.ok P' ∧ ValuesRead c T P P' ∧
        (∀ ch ∈ l, c.core.maps.fromCoup.getD (c.core.maps.chanCoup.getD ch 0) 0 = ch →
          ∀ b ∈ (c.core.chan ch).bins, P'.coup c.core.id (c.core.maps.chanCoup.getD ch 0) b
            = T.coup c.core.id (c.core.maps.chanCoup.getD ch 0) b) ∧
        ∀ ch ∈ l, P'.br c.core.id (c.core.maps.chanBr.getD ch 0)
          = brTarget c.core.maps T c.core.id (c.core.maps.chanBr.getD ch 0) := by
    intro l
    induction l with
    | nil =>
      intro P _
      exact ⟨P, rfl, ⟨rfl, .refl _ _ _, fun _ _ => Or.inl rfl⟩, fun _ h => absurd h List.not_mem_nil,
        fun _ h => absurd h List.not_mem_nil⟩
    | cons ch l ih =>
      intro P hl
      rw [List.forall_mem_cons] at hl
      obtain ⟨P1, e1, p1, b1, c1, d1⟩ := readCouplings_write hC c T ch P
      obtain ⟨P2, e2, p2, b2, c2, d2⟩ := readBranching_write hC c hm T hl.1 P1
      obtain ⟨P3, e3, v3, c3, d3⟩ := ih P2 hl.2
      have cf12 : CoupFrom T c.core.id P P2 := by
        intro i k b
        rw [b2]
        exact c1 i k b
      have bf12 : BrFrom c.core.maps T c.core.id P P2 := by
        intro i j
        have := c2 i j
        rw [b1] at this
        exact this
      refine ⟨P3, ?_, ⟨?_, cf12.trans v3.coupFrom, bf12.trans v3.brFrom⟩, ?_, ?_⟩
      · rw [List.map_cons, List.zip_cons_cons, List.foldlM_cons]
        dsimp only
        rw [e1, Outcome.ok_bind, e2, Outcome.ok_bind]
        exact e3
      · rw [v3.par, p2, p1]
      · intro ch' hch' hmm b hb
        rcases List.mem_cons.mp hch' with rfl | hch'
        · refine v3.coupFrom.keep ?_
          rw [b2]
          exact d1 hmm b hb
        · exact c3 ch' hch' hmm b hb
      · intro ch' hch'
        rcases List.mem_cons.mp hch' with rfl | hch'
        · exact v3.brFrom.keep d2
        · exact d3 ch' hch'
  obtain ⟨P', e, v, h1, h2⟩ := main (List.range c.core.channels.length) P
    (fun ch hch => List.mem_range.mp hch)
  refine ⟨P', e, v, ?_, fun ch hch => h2 ch (List.mem_range.mpr hch)⟩
  intro k hk b hb
  obtain ⟨h3, h4⟩ := hm.master k hk
  have := h1 _ (List.mem_range.mpr h3) (by rw [h4]) b hb
  rw [h4] at this
  exact this

/-! ### start values -/

theorem storePars_spec (id first : ℕ) : ∀ (pars : List Par) (s : Store),
    (storePars id first pars s).P.coup = s.P.coup ∧ (storePars id first pars s).P.br = s.P.br ∧
    (∀ i j, (i ≠ id ∨ j < first ∨ first + pars.length ≤ j) →
      (storePars id first pars s).P.par i j = s.P.par i j ∧ (storePars id first pars s).E i j = s.E i j) ∧
    ∀ k p, pars[k]? = some p → (storePars id first pars s).P.par id (first + k) = p.start ∧
      (storePars id first pars s).E id (first + k) = p.error := by
  intro pars
  have main : ∀ (pars : List Par) (n : ℕ) (s : Store),
      let r := (pars.zipIdx n).foldl (fun (s : Store) (x : Par × ℕ) =>
        (⟨s.P.setPar id (first + x.2) x.1.start, setErr s.E id (first + x.2) x.1.error⟩ : Store)) s
      r.P.coup = s.P.coup ∧ r.P.br = s.P.br ∧
      (∀ i j, (i ≠ id ∨ j < first + n ∨ first + n + pars.length ≤ j) →
        r.P.par i j = s.P.par i j ∧ r.E i j = s.E i j) ∧
      ∀ k p, pars[k]? = some p → r.P.par id (first + n + k) = p.start ∧ r.E id (first + n + k) = p.error := by
    intro pars
    induction pars with
    | nil => intro n s; exact ⟨rfl, rfl, fun _ _ _ => ⟨rfl, rfl⟩, fun k p h => by cases h⟩
    | cons q ps ih =>
      intro n s
      have h := ih (n + 1) ⟨s.P.setPar id (first + n) q.start, setErr s.E id (first + n) q.error⟩
      dsimp only at h ⊢
      rw [List.zipIdx_cons, List.foldl_cons]
      dsimp only
      obtain ⟨h1, h2, h3, h4⟩ := h
      refine ⟨h1, h2, ?_, ?_⟩
      · intro i j hij
        have := h3 i j (by rw [List.length_cons] at hij; omega)
        rw [this.1, this.2]
        unfold Params.setPar setErr
        have hne : ¬ (i = id ∧ j = first + n) := by rw [List.length_cons] at hij; omega
        dsimp only
        rw [if_neg hne, if_neg hne]
        exact ⟨rfl, rfl⟩
      · intro k p hp
        cases k with
        | zero =>
          rw [List.getElem?_cons_zero] at hp
          cases hp
          have := h3 id (first + n) (by omega)
          rw [show first + n + 0 = first + n from rfl, this.1, this.2]
          unfold Params.setPar setErr
          dsimp only
          rw [if_pos ⟨rfl, rfl⟩, if_pos ⟨rfl, rfl⟩]
          exact ⟨rfl, rfl⟩
        | succ k =>
          rw [List.getElem?_cons_succ] at hp
          have := h4 k p hp
          rw [show first + n + (k + 1) = first + (n + 1) + k by omega]
          exact this
  intro s
  have h := main pars 0 s
  dsimp only at h
  rw [Nat.add_zero] at h
  exact h

theorem updPars_get (s : Store) (id first : ℕ) (pars : List Par) {k : ℕ} {p : Par} (h : pars[k]? = some p) :
    (updPars s id first pars)[k]? = some (p.upd (s.P.par id (first + k)) (s.E id (first + k))) := by
  unfold updPars
  rw [List.getElem?_map, List.getElem?_zipIdx, h]
  simp

theorem updPars_length (s : Store) (id first : ℕ) (pars : List Par) :
    (updPars s id first pars).length = pars.length := by
  unfold updPars
  rw [List.length_map, List.length_zipIdx]

/-- rows of the store for a component: parameters, couplings, branchings -/
structure RowOk (c : Comp) (id : ℕ) (t s : Store) : Prop where
  par : ∀ k < c.pars.length, s.P.par id k = t.P.par id k ∧ s.E id k = t.E id k
  coup : ∀ k < c.core.maps.nrCoup, ∀ b ∈ c.core.coupBins k, s.P.coup id k b = t.P.coup id k b
  br : ∀ ch < c.core.channels.length, s.P.br id (c.core.maps.chanBr.getD ch 0)
    = brTarget c.core.maps t.P id (c.core.maps.chanBr.getD ch 0)

/-- two stores agree outside of a row -/
def Frame (id : ℕ) (s s' : Store) : Prop :=
  ∀ i, i ≠ id → (∀ k, s'.P.par i k = s.P.par i k ∧ s'.E i k = s.E i k) ∧
    (∀ k b, s'.P.coup i k b = s.P.coup i k b) ∧ ∀ j, s'.P.br i j = s.P.br i j

theorem readComp'_write {S : Setup} {C : Codec} (hC : C.Faithful) {I : Input} {tMeans : List ℝ} {id : ℕ}
    {c : Comp} (h : CompOk S I tMeans id c) (t : Store) (hE : ∀ k, ErrOk C (t.E id k)) (s : Store) :
    ∃ s', readComp' S C I tMeans id (writeComp C t c) s
        = .ok ({ c with pars := updPars t id 0 c.pars }, s') ∧ RowOk c id t s' ∧ Frame id s s' := by
  have hid : c.core.id = id := (build_id h.built).1
  have hkeys := defaults_keys c.consts.kind
  rw [← h.names] at hkeys
  obtain ⟨l, hl, hdec⟩ := lookup_decay C t c (hkeys _ (by decide +kernel))
  obtain ⟨q1, q2, q3, q4⟩ := storePars_spec id 0 (updPars t id 0 c.pars) s
  obtain ⟨P', e, v, h1, h2⟩ := readValues_write hC c h.mapsG t.P
    (storePars id 0 (updPars t id 0 c.pars) s).P
  refine ⟨⟨P', (storePars id 0 (updPars t id 0 c.pars) s).E⟩, ?_, ?_, ?_⟩
  · unfold readComp'
    rw [readComp_write hC h t hE, Outcome.ok_bind]
    dsimp only
    rw [hl, mand_map _ hdec]
    show (Outcome.ok ((List.range c.core.channels.length).map (writeChan C c t.P)) >>= _) = _
    rw [Outcome.ok_bind, e, Outcome.ok_bind]
  · refine ⟨fun k hk => ?_, fun k hk b hb => ?_, fun ch hch => ?_⟩
    · have := q4 k _ (updPars_get t id 0 c.pars (List.getElem?_eq_getElem hk))
      rw [Nat.zero_add] at this
      dsimp only
      rw [v.par, this.1, this.2]
      exact ⟨rfl, rfl⟩
    · have := h1 k hk b hb
      rw [hid] at this
      exact this
    · have := h2 ch hch
      rw [hid] at this
      exact this
  · intro i hi
    refine ⟨fun k => ?_, fun k b => ?_, fun j => ?_⟩
    · dsimp only
      rw [v.par]
      exact q3 i k (Or.inl hi)
    · dsimp only
      rw [v.coupFrom.other (by rw [hid]; exact hi), q1]
    · dsimp only
      have := (v.brFrom i j).resolve_right (fun e => hi (e.1.trans hid))
      rw [this, q2]

end Rpwa.ResCfg
