import Verif.Lemmas.IntegralFiles
import Verif.Props.IntegralMeta
/-! # C89: `calcIntegrals` -/
namespace Rpwa.IntMeta
open Rpwa.Integral Rpwa.Storage

variable (md5 : List UInt8 → String) (bytes : ℂ → List UInt8) (keyWaves : String → List (Option String))

/-- the written object in terms of the matrices of the single files. -/
theorem calc_iff (hmd : ∀ l, md5 l ≠ "") (git : String) (bins : BinMap) (w : Option WeightFile) (first : EvtFile) (rest : List EvtFile)
    (hwaves : ∀ f ∈ first :: rest, f.waves.Nodup) (r : Meta) :
    calcIntegrals md5 bytes keyWaves git bins w (first :: rest) = .ok (some r) ↔
      Consistent keyWaves w bins first rest ∧
      ∃ I Is M, Integrates bins w first I ∧ List.Forall₂ (Integrates bins w) rest Is ∧
        Is.foldlM (fun a b => a.addAssign b) I = .ok M ∧
        r = { contentHash := elementHash md5 bytes M
              gitHash := git
              allZeroHash := md5 ((List.range M.nmbEvents).foldl (fun h _ => h ++ bytes 0) [])
              matrix := some M
              ampHashes := (((first :: rest).flatMap fun f => f.amps.map (·.hash)).filter (· ≠ ""))
              keyFiles := first.amps.map (·.keyFile)
              bins := bins
              evtMetas := (first :: rest).map (·.evtMeta) } := by
  have hIs : ∀ Is, List.Forall₂ (Integrates bins w) rest Is → ∀ x ∈ Is, ∃ f ∈ rest, Integrates bins w f x := by
    intro Is hF x hx
    obtain ⟨i, hi, rfl⟩ := List.mem_iff_getElem.1 hx
    have hl := hF.length_eq
    exact ⟨rest[i]'(by omega), List.getElem_mem _, (List.forall₂_iff_get.1 hF).2 i (by omega) hi⟩
  have hfirst := calcFiles_step bins w first rest { Meta.new with gitHash := git, bins := bins } []
  -- the common part: everything after the loop
  have after : ∀ I Is, Integrates bins w first I → List.Forall₂ (Integrates bins w) rest Is → ∀ m : Meta,
      m.matrix = none → m.keyFiles = first.amps.map (·.keyFile) →
      ((do
        let M ← Is.foldlM (fun a b => a.addAssign b) I
        match m.setMatrix md5 bytes (some M) with
        | (false, _) => Outcome.ok none
        | (true, m) => do
          let w ← m.writeToFile md5 bytes keyWaves
          if w.1 then .ok (some w.2) else .ok none) = Outcome.ok (some r) ↔
        (∃ M, Is.foldlM (fun a b => a.addAssign b) I = .ok M ∧
          r = { m with
                contentHash := elementHash md5 bytes M
                allZeroHash := md5 ((List.range M.nmbEvents).foldl (fun h _ => h ++ bytes 0) [])
                matrix := some M }) ∧
        (∀ f ∈ rest, first.waves.Perm f.waves) ∧
        (∀ c ∈ first.amps.map (·.keyFile), ∀ o ∈ keyWaves c, ∃ n, o = some n ∧ n ∈ first.waves) ∧
        ((first.amps.map (·.keyFile)).flatMap keyWaves).length = first.amps.length) := by
    intro I Is hI hF m _ hkey
    obtain ⟨wI, nI, _, _⟩ := integrates_result bins w first (hwaves first (by simp)) I hI
    have hx : ∀ x ∈ Is, x.WF ∧ x.names.Nodup := by
      intro x hx
      obtain ⟨f, hf, hi⟩ := hIs Is hF x hx
      obtain ⟨a, b, _⟩ := integrates_result bins w f (hwaves f (by simp [hf])) x hi
      exact ⟨a, by rw [b]; exact hwaves f (by simp [hf])⟩
    obtain ⟨s1, s2⟩ := addAll_ok Is I wI (by rw [nI]; exact hwaves first (by simp)) hx
    have hperm : (∀ x ∈ Is, I.names.Perm x.names) ↔ ∀ f ∈ rest, first.waves.Perm f.waves := by
      rw [nI]
      constructor
      · intro h f hf
        obtain ⟨i, hi, rfl⟩ := List.mem_iff_getElem.1 hf
        have hl := hF.length_eq
        have h2 := (List.forall₂_iff_get.1 hF).2 i hi (by omega)
        obtain ⟨_, b, _⟩ := integrates_result bins w _ (hwaves _ (by simp)) _ h2
        have h3 := h (Is[i]'(by omega)) (List.getElem_mem _)
        rw [List.get_eq_getElem] at b
        rw [b] at h3
        exact h3
      · intro h x hx
        obtain ⟨f, hf, hi⟩ := hIs Is hF x hx
        obtain ⟨_, b, _⟩ := integrates_result bins w f (hwaves f (by simp [hf])) x hi
        rw [b]; exact h f hf
    have fin : ∀ M, Is.foldlM (fun a b => a.addAssign b) I = .ok M →
        ((match m.setMatrix md5 bytes (some M) with
        | (false, _) => Outcome.ok none
        | (true, m) => do
          let w ← m.writeToFile md5 bytes keyWaves
          if w.1 then .ok (some w.2) else .ok none) = Outcome.ok (some r) ↔
        r = { m with
                contentHash := elementHash md5 bytes M
                allZeroHash := md5 ((List.range M.nmbEvents).foldl (fun h _ => h ++ bytes 0) [])
                matrix := some M } ∧
        (∀ c ∈ first.amps.map (·.keyFile), ∀ o ∈ keyWaves c, ∃ n, o = some n ∧ n ∈ first.waves) ∧
        ((first.amps.map (·.keyFile)).flatMap keyWaves).length = first.amps.length) := by
      intro M hM
      obtain ⟨wM, nM, _, _⟩ := s2 M hM
      unfold Meta.setMatrix Meta.setAllZeroHash
      dsimp only
      unfold Meta.writeToFile
      rw [setHash_ok md5 bytes hmd _ M rfl wM]
      simp only [Outcome.ok_bind, if_true]
      have chk : Meta.check keyWaves { m with
                contentHash := elementHash md5 bytes M
                allZeroHash := md5 ((List.range M.nmbEvents).foldl (fun h _ => h ++ bytes 0) [])
                matrix := some M } = true ↔
          (∀ c ∈ first.amps.map (·.keyFile), ∀ o ∈ keyWaves c, ∃ n, o = some n ∧ n ∈ first.waves) ∧
          ((first.amps.map (·.keyFile)).flatMap keyWaves).length = first.amps.length := by
        refine (check_iff keyWaves _ M rfl wM).trans ?_
        rw [nM, nI]
        show (∀ c ∈ m.keyFiles, ∀ o ∈ keyWaves c, ∃ n, o = some n ∧ n ∈ first.waves) ∧
          (m.keyFiles.flatMap keyWaves).length = first.waves.length ↔ _
        rw [hkey, show first.waves.length = first.amps.length by simp [EvtFile.waves]]
      constructor
      · intro h
        split at h
        · next hc =>
          simp only [Outcome.ok.injEq, Option.some.injEq] at h
          refine ⟨h.symm, chk.1 hc⟩
        · simp at h
      · rintro ⟨rfl, h⟩
        rw [if_pos (chk.2 h)]
    constructor
    · intro h
      obtain ⟨M, hM, h⟩ := Outcome.bind_eq_ok.1 h
      obtain ⟨e, g⟩ := (fin M hM).1 h
      exact ⟨⟨M, hM, e⟩, hperm.1 (s1.1 ⟨M, hM⟩), g⟩
    · rintro ⟨⟨M, hM, e⟩, _, g⟩
      rw [hM]
      exact (fin M hM).2 ⟨e, g⟩
  unfold calcIntegrals
  constructor
  · intro h
    obtain ⟨o, ho, h⟩ := Outcome.bind_eq_ok.1 h
    cases o with
    | none => simp at h
    | some o =>
      obtain ⟨m, is⟩ := o
      obtain ⟨_, c2, _, c4, c5, I, hI, hc⟩ := (hfirst (m, is) (by simp [Meta.new]) (by simp [Meta.new]) (by simp [Meta.new])).1 ho
      have c2 := c2 rfl
      simp only [List.isEmpty_nil, if_true, Meta.new, List.nil_append] at hc c2 c4
      obtain ⟨d1, d2, d3, _, Is, d5, d6, d7⟩ := (calcFiles_rest bins w rest _ m [I] is (by simp) (by simp) c2 c4).1 hc
      rw [d5] at h
      dsimp only [List.singleton_append] at h
      obtain ⟨⟨M, hM, e⟩, g1, g2, g3⟩ := (after I Is hI d6 m (by rw [d7]) (by rw [d7])).1 h
      have hash : newHashes "" first.amps ++ fileHashes "" rest =
          (((first :: rest).flatMap fun f => f.amps.map (·.hash)).filter (· ≠ "")) := by
        simp [newHashes, fileHashes]
      refine ⟨⟨c5, ?_, by simpa using d1, c2, d2, by rw [← hash]; exact d3, g1, g2, g3⟩, I, Is, M, hI, d6, hM, ?_⟩
      · intro f hf
        rcases List.mem_cons.1 hf with rfl | hf
        · exact (integrates_iff bins w _).1 ⟨I, hI⟩
        · obtain ⟨i, hi, rfl⟩ := List.mem_iff_getElem.1 hf
          have hl := d6.length_eq
          exact (integrates_iff bins w _).1 ⟨_, (List.forall₂_iff_get.1 d6).2 i hi (by omega)⟩
      · rw [e, d7, ← hash]
        simp
  · rintro ⟨hC, I, Is, M, hI, hF, hM, rfl⟩
    have hash : newHashes "" first.amps ++ fileHashes "" rest =
        (((first :: rest).flatMap fun f => f.amps.map (·.hash)).filter (· ≠ "")) := by
      simp [newHashes, fileHashes]
    have hn := hC.hashes
    rw [← hash] at hn
    have hrun := (calcFiles_rest bins w rest { Meta.new with
          gitHash := git
          bins := bins
          keyFiles := first.amps.map (·.keyFile)
          ampHashes := newHashes "" first.amps
          evtMetas := [first.evtMeta] } _ [I] _ (by simp) (by simp) hC.keyFiles (List.nodup_append.1 hn).1).2
      ⟨by simpa using hC.different, hC.sameKeyFiles, hn, fun _ => hC.binned, Is, rfl, hF, rfl⟩
    have h0 := (hfirst _ (by simp [Meta.new]) (by simp [Meta.new]) (by simp [Meta.new])).2
      ⟨by simp [Meta.new], fun _ => by simpa [Meta.new] using hC.keyFiles, fun h => by simp at h,
        by simpa [Meta.new] using (List.nodup_append.1 hn).1, hC.binned, I, hI, by simpa [Meta.new] using hrun⟩
    rw [h0]
    simp only [Outcome.ok_bind]
    refine (after I Is hI hF { Meta.new with
          gitHash := git
          bins := bins
          keyFiles := first.amps.map (·.keyFile)
          ampHashes := newHashes "" first.amps ++ fileHashes "" rest
          evtMetas := [first.evtMeta] ++ rest.map (·.evtMeta) } rfl rfl).2 ⟨⟨M, hM, ?_⟩, hC.sameWaves, hC.described, hC.number⟩
    rw [← hash]
    simp [Meta.new]

/-- C89: `calcIntegrals` writes a file exactly for input that fits together. -/
theorem calc_succeeds_iff (hmd : ∀ l, md5 l ≠ "") (git : String) (bins : BinMap) (w : Option WeightFile) (first : EvtFile)
    (rest : List EvtFile) (hwaves : ∀ f ∈ first :: rest, f.waves.Nodup) :
    (∃ r, calcIntegrals md5 bytes keyWaves git bins w (first :: rest) = .ok (some r)) ↔ Consistent keyWaves w bins first rest := by
  constructor
  · rintro ⟨r, h⟩
    exact ((calc_iff md5 bytes keyWaves hmd git bins w first rest hwaves r).1 h).1
  · intro hC
    obtain ⟨I, hI⟩ := (integrates_iff bins w first).2 (hC.fits first (by simp))
    have hIs : ∃ Is, List.Forall₂ (Integrates bins w) rest Is := by
      have hf : ∀ f ∈ rest, ∃ I, Integrates bins w f I := fun f hf => (integrates_iff bins w f).2 (hC.fits f (by simp [hf]))
      clear * - hf
      induction rest with
      | nil => exact ⟨[], .nil⟩
      | cons f fs ih =>
        obtain ⟨Is, h⟩ := ih fun g hg => hf g (by simp [hg])
        obtain ⟨I, hI⟩ := hf f (by simp)
        exact ⟨I :: Is, .cons hI h⟩
    obtain ⟨Is, hF⟩ := hIs
    obtain ⟨wI, nI, _, _⟩ := integrates_result bins w first (hwaves first (by simp)) I hI
    have hx : ∀ x ∈ Is, ∃ f ∈ rest, Integrates bins w f x := by
      intro x hx
      obtain ⟨i, hi, rfl⟩ := List.mem_iff_getElem.1 hx
      have hl := hF.length_eq
      exact ⟨rest[i]'(by omega), List.getElem_mem _, (List.forall₂_iff_get.1 hF).2 i (by omega) hi⟩
    have hx' : ∀ x ∈ Is, x.WF ∧ x.names.Nodup := by
      intro x h
      obtain ⟨f, hf, hi⟩ := hx x h
      obtain ⟨a, b, _⟩ := integrates_result bins w f (hwaves f (by simp [hf])) x hi
      exact ⟨a, by rw [b]; exact hwaves f (by simp [hf])⟩
    obtain ⟨M, hM⟩ := (addAll_ok Is I wI (by rw [nI]; exact hwaves first (by simp)) hx').1.2 (by
      intro x h
      obtain ⟨f, hf, hi⟩ := hx x h
      obtain ⟨_, b, _⟩ := integrates_result bins w f (hwaves f (by simp [hf])) x hi
      rw [nI, b]; exact hC.sameWaves f hf)
    exact ⟨_, (calc_iff md5 bytes keyWaves hmd git bins w first rest hwaves _).2 ⟨hC, I, Is, M, hI, hF, hM, rfl⟩⟩

/-- C89: what `calcIntegrals` writes: for every pair of waves the average over the events of all files in the bin, and metadata that name all
inputs. (The averages are NaN in C++ if no event lies in the bin; the sums are stated without division.) -/
theorem calc_result (hmd : ∀ l, md5 l ≠ "") (git : String) (bins : BinMap) (w : Option WeightFile)
    (first : EvtFile) (rest : List EvtFile)
    (hwaves : ∀ f ∈ first :: rest, f.waves.Nodup) (r : Meta)
    (h : calcIntegrals md5 bytes keyWaves git bins w (first :: rest) = .ok (some r)) :
    ∃ M, r.matrix = some M ∧ M.WF ∧ M.names = first.waves ∧ M.nmbEvents = eventsIn bins (first :: rest) ∧
      (∀ a ∈ first.waves, ∀ b ∈ first.waves, M.entry a b = totalOf w bins (first :: rest) a b ∧
        M.elementByName a b = .ok (totalOf w bins (first :: rest) a b / (eventsIn bins (first :: rest) : ℂ))) ∧
      r.contentHash = elementHash md5 bytes M ∧ r.recalculateHash md5 bytes = .ok r.contentHash ∧
      r.gitHash = git ∧ r.bins = bins ∧ r.evtMetas = (first :: rest).map (·.evtMeta) ∧
      r.keyFiles = first.amps.map (·.keyFile) ∧
      r.ampHashes = (((first :: rest).flatMap fun f => f.amps.map (·.hash)).filter (· ≠ "")) := by
  obtain ⟨hC, I, Is, M, hI, hF, hM, rfl⟩ := (calc_iff md5 bytes keyWaves hmd git bins w first rest hwaves r).1 h
  obtain ⟨wI, nI, eI, vI⟩ := integrates_result bins w first (hwaves first (by simp)) I hI
  have hx' : ∀ x ∈ Is, x.WF ∧ x.names.Nodup := by
    intro x hx
    obtain ⟨i, hi, rfl⟩ := List.mem_iff_getElem.1 hx
    have hl := hF.length_eq
    have hm : rest[i]'(by omega) ∈ rest := List.getElem_mem _
    obtain ⟨a, b, _⟩ := integrates_result bins w _ (hwaves _ (by simp [hm])) _ ((List.forall₂_iff_get.1 hF).2 i (by omega) hi)
    exact ⟨a, by rw [List.get_eq_getElem] at b; rw [b]; exact hwaves _ (by simp)⟩
  obtain ⟨wM, nM, eM, vM⟩ := (addAll_ok Is I wI (by rw [nI]; exact hwaves first (by simp)) hx').2 M hM
  have hev : M.nmbEvents = eventsIn bins (first :: rest) := by
    rw [eM, eI]
    unfold eventsIn
    rw [List.map_cons, List.sum_cons]
    congr 2
    clear * - hF hwaves
    induction hF with
    | nil => rfl
    | @cons f x fs Is hx hF ih =>
      rw [List.map_cons, List.map_cons, ih fun g hg => hwaves g (by
        rcases List.mem_cons.1 hg with rfl | hg
        · simp
        · simp [hg]), (integrates_result bins w f (hwaves f (by simp)) x hx).2.2.1]
  have hsum : ∀ a ∈ first.waves, ∀ b ∈ first.waves, M.entry a b = totalOf w bins (first :: rest) a b := by
    intro a ha b hb
    rw [vM a (by rw [nI]; exact ha) b (by rw [nI]; exact hb), vI a ha b hb]
    unfold totalOf
    rw [List.map_cons, List.sum_cons]
    congr 2
    have hp := hC.sameWaves
    clear * - hF hwaves hp ha hb
    induction hF with
    | nil => rfl
    | @cons f x fs Is hx hF ih =>
      rw [List.map_cons, List.map_cons, ih (fun g hg => hwaves g (by
        rcases List.mem_cons.1 hg with rfl | hg
        · simp
        · simp [hg])) (fun g hg => hp g (by simp [hg])),
        (integrates_result bins w f (hwaves f (by simp)) x hx).2.2.2 a ((hp f (by simp)).subset ha) b ((hp f (by simp)).subset hb)]
  refine ⟨M, rfl, wM, nM.trans nI, hev, fun a ha b hb => ⟨hsum a ha b hb, ?_⟩, rfl, recalculateHash_ok md5 bytes _ M rfl wM, rfl, rfl, rfl, rfl,
    rfl⟩
  rw [elementByName_ok M wM a b (by rw [nM, nI]; exact ha) (by rw [nM, nI]; exact hb), hsum a ha b hb, hev]

/-- `calcIntegrals` without event files raises an exception. -/
theorem calc_nothing (git : String) (bins : BinMap) (w : Option WeightFile) :
    calcIntegrals md5 bytes keyWaves git bins w [] = .terminate := rfl

/-- the same event files, with their waves, in another order. -/
def Shuffled (fs gs : List EvtFile) : Prop :=
  ∃ hs, fs.Perm hs ∧ List.Forall₂ (fun f g => f.evtMeta = g.evtMeta ∧ f.rows = g.rows ∧ f.amps.Perm g.amps) hs gs

theorem amp_perm (f g : EvtFile) (hn : f.waves.Nodup) (hp : f.amps.Perm g.amps) (a : String) (ev : ℕ) : f.amp a ev = g.amp a ev := by
  unfold EvtFile.amp
  congr 2
  have hg : (g.amps.map (·.wave)).Nodup := (List.Perm.nodup_iff (hp.map AmpFile.wave)).1 hn
  cases h : f.amps.find? (fun x => decide (x.wave = a)) with
  | none =>
    symm
    rw [List.find?_eq_none] at h ⊢
    exact fun x hx => h x (hp.symm.subset hx)
  | some x =>
    symm
    have hx := List.mem_of_find?_eq_some h
    have hxa : x.wave = a := by simpa using List.find?_some h
    cases h' : g.amps.find? (fun x => decide (x.wave = a)) with
    | none =>
      rw [List.find?_eq_none] at h'
      have := h' x (hp.subset hx)
      simp [hxa] at this
    | some y =>
      have hy := List.mem_of_find?_eq_some h'
      have hya : y.wave = a := by simpa using List.find?_some h'
      rw [List.inj_on_of_nodup_map hg hy (hp.subset hx) (hya.trans hxa.symm)]

/-- C89: the order in which the dictionaries of event files and amplitude files are traversed does not influence the integrals. -/
theorem calc_order (hmd : ∀ l, md5 l ≠ "") (git : String) (bins : BinMap) (w : Option WeightFile)
    (f : EvtFile) (fs : List EvtFile) (g : EvtFile) (gs : List EvtFile)
    (hwaves : ∀ x ∈ f :: fs, x.waves.Nodup) (hsh : Shuffled (f :: fs) (g :: gs)) (r s : Meta)
    (h1 : calcIntegrals md5 bytes keyWaves git bins w (f :: fs) = .ok (some r))
    (h2 : calcIntegrals md5 bytes keyWaves git bins w (g :: gs) = .ok (some s)) :
    ∃ M N, r.matrix = some M ∧ s.matrix = some N ∧ M.names.Perm N.names ∧ M.nmbEvents = N.nmbEvents ∧
      ∀ a ∈ M.names, ∀ b ∈ M.names, M.elementByName a b = N.elementByName a b := by
  obtain ⟨hs, hp, hF⟩ := hsh
  have hwg : ∀ x ∈ g :: gs, x.waves.Nodup := by
    intro x hx
    obtain ⟨i, hi, rfl⟩ := List.mem_iff_getElem.1 hx
    have hl := hF.length_eq
    have := (List.forall₂_iff_get.1 hF).2 i (by omega) hi
    simp only [List.get_eq_getElem] at this
    have hm : hs[i]'(by omega) ∈ f :: fs := hp.symm.subset (List.getElem_mem _)
    exact (List.Perm.nodup_iff (this.2.2.map AmpFile.wave)).1 (hwaves _ hm)
  obtain ⟨M, m1, m2, m3, m4, m5, _⟩ := calc_result md5 bytes keyWaves hmd git bins w f fs hwaves r h1
  obtain ⟨N, n1, n2, n3, n4, n5, _⟩ := calc_result md5 bytes keyWaves hmd git bins w g gs hwg s h2
  have hC := ((calc_iff md5 bytes keyWaves hmd git bins w f fs hwaves r).1 h1).1
  have each : List.Forall₂ (fun x y => x.inBin bins = y.inBin bins ∧ ∀ a b, x.total w bins a b = y.total w bins a b) hs (g :: gs) := by
    rw [List.forall₂_iff_get] at hF ⊢
    refine ⟨hF.1, fun i hi hj => ?_⟩
    obtain ⟨_, e2, e3⟩ := hF.2 i hi hj
    have hm : hs[i] ∈ f :: fs := hp.symm.subset (List.getElem_mem _)
    have e4 : (hs.get ⟨i, hi⟩).inBin bins = ((g :: gs).get ⟨i, hj⟩).inBin bins := by
      unfold EvtFile.inBin; rw [e2]
    refine ⟨e4, fun a b => ?_⟩
    unfold EvtFile.total
    rw [e4]
    congr 1
    apply List.map_congr_left
    intro ek _
    have hm' : (hs.get ⟨i, hi⟩).waves.Nodup := hwaves _ hm
    rw [amp_perm _ _ hm' e3 a, amp_perm _ _ hm' e3 b]
  have hev : eventsIn bins (f :: fs) = eventsIn bins (g :: gs) := by
    unfold eventsIn
    rw [(hp.map _).sum_eq]
    clear * - each
    generalize g :: gs = ks at each
    induction each with
    | nil => rfl
    | cons h _ ih => simp only [List.map_cons, List.sum_cons, ih, h.1]
  have htot : ∀ a b, totalOf w bins (f :: fs) a b = totalOf w bins (g :: gs) a b := by
    intro a b
    unfold totalOf
    rw [(hp.map _).sum_eq]
    clear * - each
    generalize g :: gs = ks at each
    induction each with
    | nil => rfl
    | cons h _ ih => simp only [List.map_cons, List.sum_cons, ih, h.2]
  have hwv : f.waves.Perm g.waves := by
    have h0 := (List.forall₂_iff_get.1 hF).2 0 (by have := hF.length_eq; simp at this; omega) (by simp)
    have hm : hs[0]'(by have := hF.length_eq; simp at this; omega) ∈ f :: fs := hp.symm.subset (List.getElem_mem _)
    have h1 : (hs[0]'(by have := hF.length_eq; simp at this; omega)).waves.Perm g.waves := by
      exact h0.2.2.map AmpFile.wave
    refine List.Perm.trans ?_ h1
    rcases List.mem_cons.1 hm with e | hm
    · rw [e]
    · exact hC.sameWaves _ hm
  refine ⟨M, N, m1, n1, by rw [m3, n3]; exact hwv, by rw [m4, n4, hev], fun a ha b hb => ?_⟩
  rw [m3] at ha hb
  rw [(m5 a ha b hb).2, (n5 a (hwv.subset ha) b (hwv.subset hb)).2, hev, htot]

/-- C89: integrals of two sets of files, merged afterwards, are the integrals of all files together (bins may differ). -/
theorem merge_of_calc (hmd : ∀ l, md5 l ≠ "") (git : String) (b1 b2 : BinMap) (w : Option WeightFile)
    (f : EvtFile) (fs : List EvtFile) (g : EvtFile) (gs : List EvtFile)
    (hb1 : (b1.map (·.1)).Nodup) (hb2 : (b2.map (·.1)).Nodup)
    (hwf : ∀ x ∈ f :: fs, x.waves.Nodup) (hwg : ∀ x ∈ g :: gs, x.waves.Nodup) (r s t : Meta)
    (h1 : calcIntegrals md5 bytes keyWaves git b1 w (f :: fs) = .ok (some r))
    (h2 : calcIntegrals md5 bytes keyWaves git b2 w (g :: gs) = .ok (some s))
    (h : r.merge md5 bytes s = .ok (true, t)) :
    ∃ M, t.matrix = some M ∧ M.names = f.waves ∧ M.nmbEvents = eventsIn b1 (f :: fs) + eventsIn b2 (g :: gs) ∧
      (∀ a ∈ f.waves, ∀ b ∈ f.waves, M.elementByName a b =
        .ok ((totalOf w b1 (f :: fs) a b + totalOf w b2 (g :: gs) a b) / ((eventsIn b1 (f :: fs) + eventsIn b2 (g :: gs) : ℕ) : ℂ))) ∧
      t.evtMetas = (f :: fs ++ g :: gs).map (·.evtMeta) ∧ Hull b1 b2 t.bins ∧ t.contentHash = elementHash md5 bytes M := by
  obtain ⟨M, m1, m2, m3, m4, m5, m6, m7, m8, m9, m10, m11, m12⟩ := calc_result md5 bytes keyWaves hmd git b1 w f fs hwf r h1
  obtain ⟨N, n1, n2, n3, n4, n5, n6, n7, n8, n9, n10, n11, n12⟩ := calc_result md5 bytes keyWaves hmd git b2 w g gs hwg s h2
  have C1 := ((calc_iff md5 bytes keyWaves hmd git b1 w f fs hwf r).1 h1).1
  have C2 := ((calc_iff md5 bytes keyWaves hmd git b2 w g gs hwg s).1 h2).1
  have t1 : r.Tidy := ⟨by rw [m12]; exact C1.hashes, by rw [m10]; exact C1.different, by rw [m9]; exact hb1⟩
  have t2 : s.Tidy := ⟨by rw [n12]; exact C2.hashes, by rw [n10]; exact C2.different, by rw [n9]; exact hb2⟩
  obtain ⟨R, r1, r2, r3, r4, r5, r6, r7, r8, r9, r10, r11, r12, r13⟩ := merge_result md5 bytes hmd r s t M N m1 n1 m2 n2 t1 t2 h
  have hp := ((merge_succeeds_iff md5 bytes hmd r s M N m1 n1 m2 n2 (by rw [m3]; exact hwf f (by simp))
    (by rw [n3]; exact hwg g (by simp)) t1 t2).1 ⟨t, h⟩).waves
  rw [m3, n3] at hp
  refine ⟨R, r1, r3.trans m3, by rw [r4, m4, n4], fun a ha b hb => ?_, by rw [r12, m10, n10]; simp, by rw [m9, n9] at r13; exact r13, r6⟩
  rw [elementByName_ok R r2 a b (by rw [r3, m3]; exact ha) (by rw [r3, m3]; exact hb), r5 a (by rw [m3]; exact ha) b (by rw [m3]; exact hb),
    (m5 a ha b hb).1, (n5 a (hp.subset ha) b (hp.subset hb)).1, r4, m4, n4]

end Rpwa.IntMeta
