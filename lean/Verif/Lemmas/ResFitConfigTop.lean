import Verif.Lemmas.ResFitConfigVals

/-!
# Lemmas: written configurations of a resonance-model fit, components and final-state mass dependence
-/

namespace Rpwa.ResCfg

open ResFit (Name Params Input Channel Maps Component Shape ShapeCfg Formula Fsmd Model)

/-! ### the list of components -/

/-- the component with the values of a store as start values -/
def Comp.upd (t : Store) (c : Comp) : Comp := { c with pars := updPars t c.core.id 0 c.pars }

theorem RowOk.frame {c : Comp} {i id : ℕ} {t s s' : Store} (h : RowOk c i t s) (hf : Frame id s s')
    (hi : i ≠ id) : RowOk c i t s' := by
  obtain ⟨h1, h2, h3⟩ := hf i hi
  refine ⟨fun k hk => ?_, fun k hk b hb => ?_, fun ch hch => ?_⟩
  · rw [(h1 k).1, (h1 k).2]; exact h.par k hk
  · rw [h2]; exact h.coup k hk b hb
  · rw [h3]; exact h.br ch hch

theorem comps_fold {S : Setup} {C : Codec} (hC : C.Faithful) {I : Input} {tMeans : List ℝ} (t : Store)
    (hE : ∀ i k, ErrOk C (t.E i k)) : ∀ (cs done : List Comp) (s : Store),
    (∀ i c, (done ++ cs)[i]? = some c → CompOk S I tMeans i c) →
    ((done ++ cs).map (·.core.name)).Nodup →
    (∀ i c, done[i]? = some c → RowOk c i t s) →
    ∃ s', (cs.map (writeComp C t)).foldlM (fun (acc : List Comp × Store) v => do
        let r ← readComp' S C I tMeans acc.1.length v acc.2
        if acc.1.any (fun c => c.core.name = r.1.core.name) then .terminate
        else .ok (acc.1 ++ [r.1], r.2)) (done.map (Comp.upd t), s)
        = Outcome.ok ((done ++ cs).map (Comp.upd t), s') ∧
      (∀ i c, (done ++ cs)[i]? = some c → RowOk c i t s')
  | [], done, s, _, _, h => by
    rw [List.append_nil]
    exact ⟨s, rfl, h⟩
  | c :: cs, done, s, hok, hnd, hrow => by
    have hc : CompOk S I tMeans done.length c := hok done.length c (by
      rw [List.getElem?_append_right (Nat.le_refl _), Nat.sub_self]; rfl)
    obtain ⟨s1, e1, hr, hf⟩ := readComp'_write hC hc t (hE done.length) s
    have hid : c.core.id = done.length := (build_id hc.built).1
    have hx : ¬ ((done.map (Comp.upd t)).any fun a => decide (a.core.name = c.core.name)) = true := by
      rw [List.any_eq_true]
      rintro ⟨a, ha, h'⟩
      obtain ⟨b, hb, rfl⟩ := List.mem_map.mp ha
      rw [List.map_append, List.nodup_append] at hnd
      exact hnd.2.2 _ (List.mem_map.mpr ⟨b, hb, rfl⟩) _ (List.mem_map.mpr ⟨c, List.mem_cons_self, rfl⟩)
        (of_decide_eq_true h')
    have hsplit : done ++ c :: cs = (done ++ [c]) ++ cs := by rw [List.append_assoc]; rfl
    obtain ⟨s', e2, h2⟩ := comps_fold hC t hE cs (done ++ [c]) s1
      (by rw [← hsplit]; exact hok) (by rw [← hsplit]; exact hnd) (by
        intro i a ha
        by_cases hi : i < done.length
        · rw [List.getElem?_append_left hi] at ha
          exact (hrow i a ha).frame hf (by omega)
        · rw [List.getElem?_append_right (by omega)] at ha
          have hz : i - done.length = 0 := by
            have := (List.getElem?_eq_some_iff.mp ha).1
            rw [List.length_singleton] at this
            omega
          rw [hz] at ha
          cases ha
          rw [show i = done.length by omega]
          exact hr)
    refine ⟨s', ?_, by rw [hsplit]; exact h2⟩
    rw [List.map_cons, List.foldlM_cons]
    dsimp only
    rw [List.length_map, e1, Outcome.ok_bind]
    dsimp only
    rw [if_neg hx, Outcome.ok_bind, hsplit, ← e2, List.map_append]
    congr 3
    unfold Comp.upd
    rw [List.map_singleton, hid]

theorem readComps_write {S : Setup} {C : Codec} (hC : C.Faithful) {I : Input} {tMeans : List ℝ} (t : Store)
    (hE : ∀ i k, ErrOk C (t.E i k)) {cs : List Comp}
    (hok : ∀ i c, cs[i]? = some c → CompOk S I tMeans i c) (hnd : (cs.map (·.core.name)).Nodup)
    {m : List (Name × V)} (hm : m.lookup kComponents = some (.seq (cs.map (writeComp C t)))) (s : Store) :
    ∃ s', readComps S C I tMeans (.map m) s = .ok (cs.map (Comp.upd t), s') ∧
      ∀ i c, cs[i]? = some c → RowOk c i t s' := by
  obtain ⟨s', e, h⟩ := comps_fold (S := S) hC t hE cs [] s hok hnd (fun i c h => by cases h)
  refine ⟨s', ?_, h⟩
  unfold readComps
  rw [mand_map _ hm]
  exact e

/-! ### final-state mass dependence -/

/-- the names of the parameters of a formula can be told apart in its map -/
def NamesOk (S : Setup) (text : Name) : Prop :=
  (S.formula text).1.Nodup ∧ kFormula ∉ (S.formula text).1

/-- the function of a bin with the values of a store as start values -/
def FsmdBin.upd (t : Store) (id first : ℕ) (b : FsmdBin) : FsmdBin :=
  { b with pars := updPars t id first b.pars }

theorem readFsmdBin_write {S : Setup} {C : Codec} (hC : C.Faithful) {b : FsmdBin}
    (hn : NamesOk S b.text) (hp : b.pars.map (·.name) = (S.formula b.text).1) (f : Fsmd) (t : Store)
    (hE : ∀ k, ErrOk C (t.E f.id k)) (i : ℕ) :
    readFsmdBin S C (writeFsmdBin C f t i b)
      = .ok (b.upd t f.id (f.parIndex.getD i 0)) := by
  unfold writeFsmdBin readFsmdBin
  dsimp only
  rw [mand_map (w := .text b.text) _ (by rw [List.lookup_cons]; rfl)]
  show (Outcome.ok b.text >>= _) = _
  rw [Outcome.ok_bind]
  have := readPars_write hC
    (l := (kFormula, V.text b.text) :: b.pars.zipIdx.map fun x =>
      writePar C x.1 (t.P.par f.id (f.parIndex.getD i 0 + x.2)) (t.E f.id (f.parIndex.getD i 0 + x.2)))
    (id : Name → Name) (fun _ => (0.0001 : ℝ))
    (fun k => t.P.par f.id (f.parIndex.getD i 0 + k)) (fun k => t.E f.id (f.parIndex.getD i 0 + k))
    (fun k => hE _) (S.formula b.text).1 b.pars 0 (by rw [hp, List.map_id]) (by
      intro j p hj
      have hne : (p.name == kFormula) = false := by
        rw [beq_eq_false_iff_ne]
        intro e
        refine hn.2 ?_
        rw [← hp, ← e]
        exact List.mem_map.mpr ⟨p, List.mem_of_getElem? hj, rfl⟩
      rw [List.lookup_cons, hne]
      exact parDocs_lookup C (fun k => t.P.par f.id (f.parIndex.getD i 0 + k))
        (fun k => t.E f.id (f.parIndex.getD i 0 + k)) b.pars 0 (by rw [hp]; exact hn.1) hj)
  dsimp only [id] at this
  rw [this, Outcome.ok_bind]
  rfl

/-- a final-state mass dependence that is the result of reading -/
structure FsmdOk (S : Setup) (I : Input) (id : ℕ) (f : FsmdC) : Prop where
  pars : ∀ b ∈ f.bins, b.pars.map (·.name) = (S.formula b.text).1
  made : (∃ b, f.bins = [b] ∧ ResFit.mkFsmdSame I id (S.fn b.text) = some f.core) ∨
    ResFit.mkFsmdPerBin I id (f.bins.map fun b => S.fn b.text) = some f.core

/-- the final-state mass dependence with the values of a store as start values -/
def FsmdC.upd (t : Store) (f : FsmdC) : FsmdC :=
  ⟨f.core, f.bins.zipIdx.map fun x =>
    x.1.upd t f.core.id (f.core.parIndex.getD x.2 0)⟩

/-- the row of the store for the final-state mass dependence -/
def FsmdRow (f : FsmdC) (t s : Store) : Prop :=
  ∀ i b, f.bins[i]? = some b → ∀ k < b.pars.length,
    s.P.par f.core.id (f.core.parIndex.getD i 0 + k) = t.P.par f.core.id (f.core.parIndex.getD i 0 + k) ∧
    s.E f.core.id (f.core.parIndex.getD i 0 + k) = t.E f.core.id (f.core.parIndex.getD i 0 + k)

theorem storePars_upd (id first : ℕ) (pars : List Par) (t s : Store) :
    Frame id s (storePars id first (updPars t id first pars) s) ∧
    (∀ j, j < first → (storePars id first (updPars t id first pars) s).P.par id j = s.P.par id j ∧
      (storePars id first (updPars t id first pars) s).E id j = s.E id j) ∧
    ∀ k < pars.length, (storePars id first (updPars t id first pars) s).P.par id (first + k)
        = t.P.par id (first + k) ∧
      (storePars id first (updPars t id first pars) s).E id (first + k) = t.E id (first + k) := by
  obtain ⟨h1, h2, h3, h4⟩ := storePars_spec id first (updPars t id first pars) s
  refine ⟨fun i hi => ⟨fun k => h3 i k (Or.inl hi), fun k b => by rw [h1], fun j => by rw [h2]⟩,
    fun j hj => h3 id j (Or.inr (Or.inl hj)), fun k hk => ?_⟩
  exact h4 k _ (updPars_get t id first pars (List.getElem?_eq_getElem hk))

theorem Frame.refl (id : ℕ) (s : Store) : Frame id s s :=
  fun _ _ => ⟨fun _ => ⟨rfl, rfl⟩, fun _ _ => rfl, fun _ => rfl⟩

theorem Frame.trans {id : ℕ} {s s' s'' : Store} (h : Frame id s s') (h' : Frame id s' s'') :
    Frame id s s'' := by
  intro i hi
  obtain ⟨a1, a2, a3⟩ := h i hi
  obtain ⟨b1, b2, b3⟩ := h' i hi
  exact ⟨fun k => ⟨(b1 k).1.trans (a1 k).1, (b1 k).2.trans (a1 k).2⟩, fun k b => (b2 k b).trans (a2 k b),
    fun j => (b3 j).trans (a3 j)⟩

/-- the loop that stores the parameters of all bins -/
theorem fsmd_store (id : ℕ) (t : Store) (g : FsmdBin → Formula) :
    ∀ (bs : List FsmdBin) (first k : ℕ) (idx : ℕ → ℕ) (s : Store),
    (∀ b ∈ bs, b.pars.length = (g b).npar) →
    (∀ i, i < bs.length → idx (k + i) = (ResFit.parIndices first (bs.map g)).getD i 0) →
    let r := (((bs.zipIdx k).map fun x => x.1.upd t id (idx x.2)).foldl
      (fun (acc : ℕ × Store) (b : FsmdBin) =>
        (acc.1 + b.pars.length, storePars id acc.1 b.pars acc.2)) (first, s)).2
    Frame id s r ∧ (∀ j, j < first → r.P.par id j = s.P.par id j ∧ r.E id j = s.E id j) ∧
    ∀ i b, bs[i]? = some b → ∀ q < b.pars.length,
      r.P.par id (idx (k + i) + q) = t.P.par id (idx (k + i) + q) ∧
      r.E id (idx (k + i) + q) = t.E id (idx (k + i) + q)
  | [], first, k, idx, s, _, _ => ⟨Frame.refl id s, fun _ _ => ⟨rfl, rfl⟩, fun i b h => by cases h⟩
  | b :: bs, first, k, idx, s, hl, hidx => by
    have h0 : idx k = first := by
      have := hidx 0 (by rw [List.length_cons]; omega)
      exact this
    have hb : b.pars.length = (g b).npar := hl b List.mem_cons_self
    obtain ⟨f1, f2, f3⟩ := storePars_upd id first b.pars t s
    have ih := fsmd_store id t g bs (first + b.pars.length) (k + 1) idx
      (storePars id first (updPars t id first b.pars) s)
      (fun b' hb' => hl b' (List.mem_cons_of_mem _ hb')) (fun i hi => by
        have := hidx (i + 1) (by rw [List.length_cons]; omega)
        rw [show k + 1 + i = k + (i + 1) by omega, this, hb]
        rfl)
    dsimp only at ih ⊢
    rw [List.zipIdx_cons, List.map_cons, List.foldl_cons]
    dsimp only
    rw [h0, show (b.upd t id first).pars = updPars t id first b.pars from rfl, updPars_length]
    obtain ⟨i1, i2, i3⟩ := ih
    refine ⟨f1.trans i1, fun j hj => ?_, fun i c hc q hq => ?_⟩
    · have a := i2 j (by omega)
      have b := f2 j hj
      exact ⟨a.1.trans b.1, a.2.trans b.2⟩
    · cases i with
      | zero =>
        cases hc
        rw [show k + 0 = k from rfl, h0]
        have a := i2 (first + q) (by omega)
        have b := f3 q hq
        exact ⟨a.1.trans b.1, a.2.trans b.2⟩
      | succ i =>
        have := i3 i c hc q hq
        rw [show k + (i + 1) = k + 1 + i by omega]
        exact this

theorem readFsmd_write {S : Setup} {C : Codec} (hC : C.Faithful) {I : Input} {id : ℕ} {f : FsmdC}
    (hf : FsmdOk S I id f) (hn : ∀ b ∈ f.bins, NamesOk S b.text) (t : Store)
    (hE : ∀ i k, ErrOk C (t.E i k)) :
    ∃ v, writeFsmd C (some f) t = .ok [(kFsmd, .plain v)] ∧
      ∀ (m : List (Name × V)), m.lookup kFsmd = some v → ∀ s,
      ∃ s', readFsmd S C I id (.map m) s = .ok (some (f.upd t), s') ∧ FsmdRow f t s' ∧ Frame id s s' := by
  obtain ⟨core, bins⟩ := f
  rcases hf.made with ⟨b, hb, hmk⟩ | hmk
  · dsimp only at hb hmk
    subst hb
    have hmk' := hmk
    unfold ResFit.mkFsmdSame at hmk
    obtain ⟨gr, hgr, rfl⟩ := Option.map_eq_some_iff.mp hmk
    refine ⟨_, rfl, fun m hm s => ?_⟩
    have hread := readFsmdBin_write hC (hn b List.mem_cons_self) (hf.pars b List.mem_cons_self)
      ⟨id, true, List.replicate I.nrBins (S.fn b.text), List.replicate I.nrBins 0, gr⟩ t (hE id) 0
    have hz : (List.replicate I.nrBins 0).getD 0 0 = 0 := by cases I.nrBins <;> rfl
    obtain ⟨f1, _, f3⟩ := storePars_upd id 0 b.pars t s
    refine ⟨storePars id 0 (updPars t id 0 b.pars) s, ?_, ?_, f1⟩
    · unfold readFsmd
      rw [opt_some _ _ hm]
      unfold writeFsmdBin at hread ⊢
      dsimp only at hread ⊢
      rw [hread, Outcome.ok_bind]
      rw [hz, show (b.upd t id 0).text = b.text from rfl, hmk']
      show (Outcome.ok _ >>= _) = _
      rw [Outcome.ok_bind]
      unfold FsmdC.upd
      dsimp only [List.zipIdx, List.map]
      rw [hz]
      rfl
    · intro i c hc k hk
      have hi0 : i = 0 := by
        have := (List.getElem?_eq_some_iff.mp hc).1
        rw [List.length_singleton] at this
        omega
      subst hi0
      cases hc
      dsimp only
      rw [hz]
      exact f3 k hk
  · dsimp only at hmk
    have hmk' := hmk
    unfold ResFit.mkFsmdPerBin at hmk
    split at hmk
    · cases hmk
    rename_i hlen
    cases hmk
    refine ⟨_, rfl, fun m hm s => ?_⟩
    have hread : ∀ (bs : List FsmdBin) (k : ℕ), (∀ b ∈ bs, b ∈ bins) →
        (((bs.zipIdx k).map fun x => writeFsmdBin C ⟨id, false, bins.map fun b => S.fn b.text,
          ResFit.parIndices 0 (bins.map fun b => S.fn b.text), ResFit.singleBinGroups I⟩ t x.2 x.1).mapM
          (readFsmdBin S C)) = .ok ((bs.zipIdx k).map fun x => x.1.upd t id
            ((ResFit.parIndices 0 (bins.map fun b => S.fn b.text)).getD x.2 0)) := by
      intro bs
      induction bs with
      | nil => intro k _; rfl
      | cons b bs ih =>
        intro k hbs
        rw [List.zipIdx_cons, List.map_cons, List.mapM_cons,
          readFsmdBin_write hC (hn b (hbs b List.mem_cons_self)) (hf.pars b (hbs b List.mem_cons_self)) _ t
            (hE id), Outcome.ok_bind, ih (k + 1) (fun b' hb' => hbs b' (List.mem_cons_of_mem _ hb'))]
        rfl
    have hst := fsmd_store id t (fun b => S.fn b.text) bins 0 0
      (fun i => (ResFit.parIndices 0 (bins.map fun b => S.fn b.text)).getD i 0) s
      (fun b hb => by
        have := congrArg List.length (hf.pars b hb)
        rw [List.length_map] at this
        exact this)
      (fun i hi => by rw [Nat.zero_add])
    dsimp only at hst
    obtain ⟨h1, _, h3⟩ := hst
    refine ⟨_, ?_, ?_, h1⟩
    · unfold readFsmd
      rw [opt_some _ _ hm]
      dsimp only
      rw [hread bins 0 (fun _ h => h), Outcome.ok_bind]
      have hfn : (bins.zipIdx.map fun x => x.1.upd t id
          ((ResFit.parIndices 0 (bins.map fun b => S.fn b.text)).getD x.2 0)).map
            (fun b => S.fn b.text) = bins.map fun b => S.fn b.text := by
        rw [List.map_map]
        conv_rhs => rw [← List.zipIdx_map_fst 0 bins, List.map_map]
        rfl
      rw [hfn, hmk']
      rfl
    · intro i b hb k hk
      have := h3 i b hb k hk
      rw [Nat.zero_add] at this
      exact this

end Rpwa.ResCfg
