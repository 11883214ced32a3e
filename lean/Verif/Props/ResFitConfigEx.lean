import Verif.Props.ResFitConfig

/-!
# C77: errors that cannot be read back, and an example
-/

namespace Rpwa.ResCfg

open ResFit (Name Params Input Channel Maps Component Shape ShapeCfg Formula Fsmd Model)
open Pick (bind_ok_iff)

/-! ### infinite errors -/

theorem readPar_inf {C : Codec} (hC : C.Faithful) (hi : C.fmtN .inf = .chars kInf)
    (hp : C.parseN (.chars kInf) = none) {l : List (Name × V)} (p : Par) (v st : ℝ)
    (h : l.lookup p.name = some (writePar C p v .inf).2) : readPar C (.map l) p.name st = .terminate := by
  have herr : errNum C (.scalar (C.fmtN .inf)) = .terminate := by
    unfold errNum num?
    dsimp only
    rw [hi, hp]
    dsimp only
    rw [if_neg (by decide +kernel)]
  unfold readPar
  rw [mand_map _ h]
  obtain ⟨name, start, err, fixed, lower, upper, step⟩ := p
  unfold writePar
  dsimp only
  rw [mand_map (w := wNum C v) _ rfl, real_wNum hC, Outcome.ok_bind,
    mand_map (w := .scalar (C.fmtB fixed)) _ (by cases lower <;> cases upper <;> rfl), bool_fmt hC,
    Outcome.ok_bind, opt_some (w := .scalar (C.fmtN .inf)) _ _ rfl, herr]
  rfl

theorem mapM_terminate {α β : Type} {f : α → Outcome β} : ∀ {l : List α},
    (∀ a ∈ l, f a = .terminate ∨ ∃ b, f a = .ok b) → (∃ a ∈ l, f a = .terminate) →
    l.mapM f = .terminate
  | [], _, ⟨a, ha, _⟩ => by cases ha
  | x :: l, h, ⟨a, ha, e⟩ => by
    rw [List.mapM_cons]
    rcases h x List.mem_cons_self with hx | ⟨b, hx⟩
    · rw [hx]; rfl
    · rw [hx, Outcome.ok_bind, mapM_terminate (fun y hy => h y (List.mem_cons_of_mem _ hy)) ?_]
      · rfl
      · rcases List.mem_cons.mp ha with rfl | ha
        · rw [hx] at e; cases e
        · exact ⟨a, ha, e⟩

/-- If an infinity is written as a text that is not a number, a component with a parameter whose error is
infinite is written, but reading it ends the program: the reader accepts the text `inf` only for the
quality of a fit. -/
theorem inf_error_ends {S : Setup} {C : Codec} (hC : C.Faithful) (hi : C.fmtN .inf = .chars kInf)
    (hp : C.parseN (.chars kInf) = none) {I : Input} {tMeans : List ℝ} {id : ℕ} {v : V} {c : Comp}
    (h : readComp S C I tMeans id v = .ok c) (s : Store) {k : ℕ} (hk : k < c.pars.length)
    (he : s.E id k = .inf) : readComp S C I tMeans id (writeComp C s c) = .terminate := by
  have h := readComp_ok h
  have hid : c.core.id = id := (build_id h.built).1
  have hkeys := defaults_keys c.consts.kind
  rw [← h.names] at hkeys
  have hnd := defaults_nodup c.consts.kind
  rw [← h.names] at hnd
  obtain ⟨l, hl, hdec⟩ := lookup_decay C s c (hkeys _ (by decide +kernel))
  have hl' := hl
  unfold writeComp at hl'
  cases hl'
  have hlook : ∀ i p, c.pars[i]? = some p → List.lookup p.name ([(kName, .text c.core.name), (kType, .text c.consts.kind.typeName)]
      ++ (c.pars.zipIdx.map fun x => writePar C x.1 (s.P.par c.core.id x.2) (s.E c.core.id x.2))
      ++ [(kDecay, .seq ((List.range c.core.channels.length).map (writeChan C c s.P)))]
      ++ (if c.total > c.core.channels.length then
          [(kExtra, .seq ((List.range' c.core.channels.length (c.total - c.core.channels.length)).map
            fun i => .map (writeChConsts C c.consts i)))] else [])
      ++ writeConsts C c.consts) = some (writePar C p (s.P.par id i) (s.E id i)).2 := by
    intro i p hp
    have hm : p.name ∈ c.pars.map (·.name) := List.mem_map.mpr ⟨p, List.mem_of_getElem? hp, rfl⟩
    rw [List.append_assoc, List.append_assoc, List.append_assoc, lookup_skip (by
      intro hx
      rcases List.mem_cons.mp hx with e | hx
      · have e : p.name = kName := e
        exact hkeys kName (by decide +kernel) (e ▸ hm)
      · rw [List.map_cons, List.map_nil, List.mem_singleton] at hx
        have e : p.name = kType := hx
        exact hkeys kType (by decide +kernel) (e ▸ hm))]
    refine lookup_hit ?_
    have := parDocs_lookup C (fun k => s.P.par c.core.id k) (fun k => s.E c.core.id k) c.pars 0 hnd hp
    rw [Nat.zero_add, hid] at this
    rw [hid]
    exact this
  unfold readComp
  rw [hl, opt_some (w := .text c.consts.kind.typeName) _ _ rfl]
  show (kindOf c.consts.kind.typeName >>= _) = _
  rw [kindOf_typeName, Outcome.ok_bind, mand_map (w := .text c.core.name) _ rfl]
  show (Outcome.ok c.core.name >>= _) = _
  rw [Outcome.ok_bind]
  have hpar : ∀ i (hi' : i < c.pars.length) (st : ℝ), ∀ m, m = c.pars[i].name →
      (s.E id i = .inf ∧ readPar C (.map ([(kName, .text c.core.name), (kType, .text c.consts.kind.typeName)]
      ++ (c.pars.zipIdx.map fun x => writePar C x.1 (s.P.par c.core.id x.2) (s.E c.core.id x.2))
      ++ [(kDecay, .seq ((List.range c.core.channels.length).map (writeChan C c s.P)))]
      ++ (if c.total > c.core.channels.length then
          [(kExtra, .seq ((List.range' c.core.channels.length (c.total - c.core.channels.length)).map
            fun i => .map (writeChConsts C c.consts i)))] else [])
      ++ writeConsts C c.consts)) m st = .terminate) ∨ (s.E id i ≠ .inf ∧ ∃ b, readPar C (.map ([(kName, .text c.core.name), (kType, .text c.consts.kind.typeName)]
      ++ (c.pars.zipIdx.map fun x => writePar C x.1 (s.P.par c.core.id x.2) (s.E c.core.id x.2))
      ++ [(kDecay, .seq ((List.range c.core.channels.length).map (writeChan C c s.P)))]
      ++ (if c.total > c.core.channels.length then
          [(kExtra, .seq ((List.range' c.core.channels.length (c.total - c.core.channels.length)).map
            fun i => .map (writeChConsts C c.consts i)))] else [])
      ++ writeConsts C c.consts)) m st = .ok b) := by
    intro i hi' st m hm
    subst hm
    have hlk := hlook i c.pars[i] (List.getElem?_eq_getElem hi')
    by_cases hinf : s.E id i = .inf
    · rw [hinf] at hlk
      exact Or.inl ⟨hinf, readPar_inf hC hi hp _ _ _ hlk⟩
    · exact Or.inr ⟨hinf, _, readPar_write hC _ _ (fun e => absurd e hinf) _ hlk⟩
  have hlen : c.pars.length = c.consts.kind.defaults.length := by
    have := congrArg List.length h.names
    rw [List.length_map, List.length_map] at this
    exact this
  have hname : ∀ i (h1 : i < c.consts.kind.defaults.length) (h2 : i < c.pars.length),
      c.consts.kind.defaults[i].1 = c.pars[i].name := by
    intro i h1 h2
    have : (c.pars.map (·.name))[i]? = (c.consts.kind.defaults.map (·.1))[i]? := by rw [h.names]
    rw [List.getElem?_map, List.getElem?_map, List.getElem?_eq_getElem h1, List.getElem?_eq_getElem h2] at this
    exact (Option.some.inj this).symm
  rw [mapM_terminate]
  · rfl
  · intro d hd
    obtain ⟨i, hi1, rfl⟩ := List.getElem_of_mem hd
    rcases hpar i (by omega) c.consts.kind.defaults[i].2 _ (hname i hi1 (by omega)) with ⟨_, e⟩ | ⟨_, b, e⟩
    · exact Or.inl e
    · exact Or.inr ⟨b, e⟩
  · refine ⟨c.consts.kind.defaults[k]'(by omega), List.getElem_mem _, ?_⟩
    rcases hpar k hk (c.consts.kind.defaults[k]'(by omega)).2 _ (hname k (by omega) hk) with ⟨_, e⟩ | ⟨e, _⟩
    · exact e
    · exact absurd he e

/-! ### example -/

/-- integers as characters -/
def exFmtI : ℤ → Text
  | .ofNat n => .chars ('p' :: List.replicate n '1')
  | .negSucc n => .chars ('n' :: List.replicate n '1')

/-- and back -/
def exParseI : Text → Option ℤ
  | .chars ('p' :: l) => some (.ofNat l.length)
  | .chars ('n' :: l) => some (.negSucc l.length)
  | _ => none

/-- a codec that writes NaN and infinity as text -/
def exCodec : Codec where
  fmtN
    | .fin x => .decimal x
    | .nan => .chars kNan
    | .inf => .chars kInf
    | .ninf => .chars "-inf".toList
  parseN
    | .decimal x => some (.fin x)
    | .chars s => if s = "-inf".toList then some .ninf else none
  fmtI := exFmtI
  parseI := exParseI
  fmtB b := .chars (if b then "true".toList else "false".toList)
  parseB
    | .chars s => if s = "true".toList then some true else if s = "false".toList then some false else none
    | _ => none

theorem exCodec_faithful : exCodec.Faithful where
  fin _ := rfl
  nan := Or.inr ⟨rfl, rfl⟩
  inf := Or.inr ⟨rfl, rfl⟩
  ninf := rfl
  int x := by
    cases x with
    | ofNat n => show some (Int.ofNat (List.replicate n '1').length) = _; rw [List.length_replicate]
    | negSucc n => show some (Int.negSucc (List.replicate n '1').length) = _; rw [List.length_replicate]
  bool x := by cases x <;> rfl

/-- a formula with two parameters, others have none -/
noncomputable def exSetup : Setup where
  interp _ _ := 1
  formula t := if t = "[a]*x+[b]".toList then (["a".toList, "b".toList], fun x l => l.getD 0 0 * x + l.getD 1 0)
    else ([], fun _ _ => 1)
  useBranchings := false

theorem exFormula : (exSetup.formula "[a]*x+[b]".toList).1 = ["a".toList, "b".toList] := by
  unfold exSetup
  dsimp only
  rw [if_pos rfl]

/-- one bin with two waves, the second one with mass limits, a rescaling factor and a systematic -/
noncomputable def exBins : List BinC :=
  [⟨"f.root".toList, [⟨"w1".toList, -1, -1⟩, ⟨"w2".toList, 1, 2⟩], 0.1, 3, ["s.root".toList]⟩]

/-- data with two mass bins -/
noncomputable def exDat : List BinC → Input := fun _ => ⟨[], [2], fun _ m => 1 + m, fun _ _ _ => 1, fun _ _ _ => 1⟩

/-- the waves of the example -/
noncomputable def exI : Input := inputOf exDat exBins

/-- channels of both waves -/
noncomputable def exChans : List Channel := (ResFit.readChannels exI ["w1".toList, "w2".toList]).getD []

theorem exChans_eq : ResFit.readChannels exI ["w1".toList, "w2".toList] = some exChans := by rfl

/-- maps of both channels -/
noncomputable def exMaps : Maps :=
  (ResFit.mkMaps false (exChans.map fun ch => (ch.waveName, ch.bins))).getD ⟨[], [], 0, [], 0, [], []⟩

theorem exMaps_eq : ResFit.mkMaps false (exChans.map fun ch => (ch.waveName, ch.bins)) = some exMaps := by rfl

theorem exGroups_eq : ResFit.massBinGroups exI = some [[0]] := by
  unfold ResFit.massBinGroups
  show (List.range 1).foldlM _ _ = _
  rfl

/-- a Breit-Wigner with limits for its mass and a fixed width -/
noncomputable def exComp : Comp where
  core := ⟨0, "A".toList, exChans, exMaps, [[0]], .fixedWidth⟩
  pars := [⟨"mass".toList, 1.3, .fin 0.01, false, some 1, some 2, 0.001⟩,
    ⟨"width".toList, 0.1, .nan, true, none, none, 0.001⟩]
  consts := .fixedWidth

/-- a final-state mass dependence with two parameters -/
noncomputable def exFsmd : FsmdC where
  core := ⟨1, true, [exSetup.fn "[a]*x+[b]".toList], [0], [[0]]⟩
  bins := [⟨"[a]*x+[b]".toList, [⟨"a".toList, 1, .fin 0, false, none, some 5, 0.0001⟩,
    ⟨"b".toList, 0, .fin 0, true, none, none, 0.0001⟩]⟩]

noncomputable def exCfg : Config where
  quality := []
  free := []
  bins := exBins
  anchors := [("w1".toList, "A".toList)]
  comps := [exComp]
  fsmd := some exFsmd
  model := ⟨[exComp.core], some exFsmd.core, exI, [0], [0]⟩
  store := Store.empty

theorem exCfg_ok : CfgOk exSetup exDat exCfg where
  waves b hb := by
    rw [show exCfg.bins = exBins from rfl, exBins, List.mem_singleton] at hb
    subst hb
    show List.Nodup ["w1".toList, "w2".toList]
    decide +kernel
  comps i c hc := by
    have hi : i = 0 := by
      have := (List.getElem?_eq_some_iff.mp hc).1
      rw [show exCfg.comps.length = 1 from rfl] at this
      omega
    subst hi
    cases hc
    exact ⟨build_of exChans_eq exMaps_eq rfl rfl exGroups_eq, rfl, trivial, Nat.le_refl _⟩
  names := List.nodup_singleton _
  fsmd f hf := by
    cases hf
    refine ⟨fun b hb => ?_, Or.inl ⟨_, rfl, ?_⟩⟩
    · rw [show exFsmd.bins = [_] from rfl, List.mem_singleton] at hb
      subst hb
      rw [exFormula]
      rfl
    · unfold ResFit.mkFsmdSame
      show (ResFit.massBinGroups exI).map _ = _
      rw [exGroups_eq]
      rfl
  model := by rfl

/-- values and errors of a fit; the error of the width is not known -/
noncomputable def exStore : Store where
  P := { par := fun i k => i + k + 0.5, coup := fun _ k b => ⟨k, b⟩, br := fun _ _ => 1 }
  E i k := if i = 0 ∧ k = 1 then .nan else .fin 0.25

/-- a document that can be read, is written with other values, and is read again: all hypotheses of
`round_trip` and `restart` are met -/
theorem ex_round_trip : ∃ root cfg f, readConfig exSetup exCodec exDat root = .ok cfg ∧ cfg.fsmd = some f ∧
    cfg.comps.length = 1 ∧ (∃ c, cfg.comps[0]? = some c ∧ c.core.channels.length = 2 ∧ c.pars.length = 2) ∧
    ∃ doc v env cfg', writeConfig exCodec cfg exStore [("chi2".toList, .inf)] ["mass".toList] = .ok doc ∧
      load [] doc = some (v, env) ∧ readConfig exSetup exCodec exDat v = .ok cfg' ∧
      Restored cfg exStore [("chi2".toList, .inf)] ["mass".toList] cfg' ∧
      ResFit.startValues cfg'.model cfg'.store.P = ResFit.startValues cfg.model exStore.P := by
  have hE : ∀ i k, ErrOk exCodec (exStore.E i k) := by
    intro i k h
    unfold exStore at h
    dsimp only at h
    split at h <;> cases h
  have hn : ∀ b ∈ exFsmd.bins, NamesOk exSetup b.text := by
    intro b hb
    rw [show exFsmd.bins = [_] from rfl, List.mem_singleton] at hb
    subst hb
    unfold NamesOk
    rw [exFormula]
    show List.Nodup ["a".toList, "b".toList] ∧ kFormula ∉ ["a".toList, "b".toList]
    decide +kernel
  obtain ⟨_, root, _, cfg, _, _, hr, hres⟩ := written_ok exCodec_faithful exCfg_ok rfl (f := exFsmd) rfl hn exStore
    hE (quality := []) List.nodup_nil []
  have hfs := hres.fsmd
  have hcs := hres.comps
  rw [show exCfg.fsmd = some exFsmd from rfl, Option.map_some] at hfs
  refine ⟨root, cfg, _, hr, hfs, by rw [hcs, List.length_map]; rfl, ?_, ?_⟩
  · rw [hcs]
    exact ⟨_, rfl, rfl, rfl⟩
  · have hn' : ∀ b ∈ (exFsmd.upd exStore).bins, NamesOk exSetup b.text := by
      intro b hb
      unfold FsmdC.upd at hb
      obtain ⟨x, hx, rfl⟩ := List.mem_map.mp hb
      exact hn x.1 (List.fst_mem_of_mem_zipIdx hx)
    obtain ⟨doc, v, env, cfg', h1, h2, h3, h4⟩ := round_trip exCodec_faithful hr rfl hfs hn' exStore hE
      (quality := [("chi2".toList, .inf)]) (List.nodup_singleton _) ["mass".toList]
    exact ⟨doc, v, env, cfg', h1, h2, h3, h4, start_values (readConfig_ok hr) h4⟩

/-- an infinite error of the mass: the written component is not read -/
theorem ex_inf_error : ∃ v c, readComp exSetup exCodec exI [0.1] 0 v = .ok c ∧
    readComp exSetup exCodec exI [0.1] 0 (writeComp exCodec ⟨Params.empty, fun _ _ => .inf⟩ c) = .terminate := by
  have hc : CompOk exSetup exI [0.1] 0 exComp := exCfg_ok.comps 0 exComp rfl
  have hr := readComp_write exCodec_faithful hc exStore (by
    intro k h
    unfold exStore at h
    dsimp only at h
    split at h <;> cases h)
  exact ⟨_, _, hr, inf_error_ends exCodec_faithful rfl rfl hr _ (k := 0) (by decide) rfl⟩

end Rpwa.ResCfg
