import Verif.Lemmas.ResFitConfigRead

/-!
# C77: a written configuration of a resonance-model fit can be read back
-/

namespace Rpwa.ResCfg

open ResFit (Name Params Input Channel Maps Component Shape ShapeCfg Formula Fsmd Model)
open Pick (bind_ok_iff)

/-! ### loading what was written -/

theorem loadMap_append : ∀ (a b : List (Name × Doc)) (env : Env),
    loadMap env (a ++ b) = (loadMap env a).bind fun r => (loadMap r.2 b).map fun s => (r.1 ++ s.1, s.2)
  | [], b, env => by
    rw [List.nil_append]
    have : loadMap env [] = some ([], env) := by rw [loadMap]
    rw [this]
    dsimp only [Option.bind_some]
    cases loadMap env b <;> rfl
  | (k, d) :: a, b, env => by
    rw [List.cons_append, loadMap, loadMap]
    cases h : load env d with
    | none => rfl
    | some r =>
      dsimp only [Option.bind_some]
      rw [loadMap_append a b r.2]
      cases h1 : loadMap r.2 a with
      | none => rfl
      | some r1 =>
        dsimp only [Option.bind_some, Option.map_some]
        cases h2 : loadMap r1.2 b with
        | none => rfl
        | some r2 => rfl

/-- entries without anchors -/
def plains (l : List (Name × V)) : List (Name × Doc) := l.map fun e => (e.1, Doc.plain e.2)

theorem loadMap_plain : ∀ (l : List (Name × V)) (env : Env),
    loadMap env (plains l) = some (l, env)
  | [], env => by rw [plains, List.map_nil, loadMap]
  | e :: l, env => by
    rw [plains, List.map_cons, loadMap, load]
    dsimp only [Option.bind_some]
    rw [← plains, loadMap_plain l env]
    rfl

/-- a map of plain entries and one more -/
theorem loadMap_snoc {l : List (Name × V)} {k : Name} {d : Doc} {env env' : Env} {v : V}
    (h : load env d = some (v, env')) :
    loadMap env (plains l ++ [(k, d)]) = some (l ++ [(k, v)], env') := by
  rw [loadMap_append, loadMap_plain]
  dsimp only [Option.bind_some]
  rw [loadMap, h]
  dsimp only [Option.bind_some]
  rw [loadMap]
  rfl

theorem load_bin (C : Codec) (bins : List BinC) {i : ℕ} {b : BinC} (hb : bins[i]? = some b) {env : Env}
    (hk : Known kWaveset sameWaves (fun b => .seq (b.waves.map (writeWave C))) bins i env) :
    ∃ env', load env (writeBin C bins i b) = some (binV C b, env') ∧
      Known kWaveset sameWaves (fun b => .seq (b.waves.map (writeWave C))) bins (i + 1) env' := by
  obtain ⟨env', h1, h2⟩ := load_shareDoc (pref := kWaveset) (same := sameWaves)
    (f := fun b => .seq (b.waves.map (writeWave C))) (fun x y h => by
      rw [sameWaves_iff] at h
      refine ⟨fun z => ?_, by rw [h]⟩
      rw [Bool.eq_iff_iff, sameWaves_iff, sameWaves_iff, h]) hb hk
  refine ⟨env', ?_, h2⟩
  have hl := loadMap_snoc (l := [(kName, .text b.file), (kTMean, wNum C b.tMean)]
    ++ (if b.rescale ≠ 1 then [(kRescale, wNum C b.rescale)] else [])
    ++ (if b.sys.length > 0 then [(kSys, .seq (b.sys.map .text))] else [])) (k := kWaves) h1
  unfold writeBin binV
  rw [load]
  have he : plains ([(kName, V.text b.file), (kTMean, wNum C b.tMean)]
      ++ (if b.rescale ≠ 1 then [(kRescale, wNum C b.rescale)] else [])
      ++ (if b.sys.length > 0 then [(kSys, .seq (b.sys.map .text))] else []))
      = [(kName, .plain (.text b.file)), (kTMean, .plain (wNum C b.tMean))]
        ++ (if b.rescale ≠ 1 then [(kRescale, .plain (wNum C b.rescale))] else [])
        ++ (if b.sys.length > 0 then [(kSys, .plain (.seq (b.sys.map .text)))] else []) := by
    rw [plains, List.map_append, List.map_append]
    congr 1
    · congr 1
      by_cases h : b.rescale ≠ 1
      · rw [if_pos h, if_pos h]; rfl
      · rw [if_neg h, if_neg h]; rfl
    · by_cases h : b.sys.length > 0
      · rw [if_pos h, if_pos h]; rfl
      · rw [if_neg h, if_neg h]; rfl
  rw [he] at hl
  rw [hl]
  rfl

/-- the map loaded for the model -/
noncomputable def modelV (C : Codec) (cfg : Config) (s : Store) (f : V) : List (Name × V) :=
  [(kAnchors, .seq (cfg.anchors.map anchorV)),
    (kComponents, .seq (cfg.comps.map (writeComp C s))), (kFsmd, f)]

/-- the map loaded for the whole configuration -/
noncomputable def rootV (C : Codec) (cfg : Config) (s : Store) (quality : List (Name × Num))
    (free : List Name) (f : V) : List (Name × V) :=
  [(kQuality, .map (quality.map fun e => (e.1, .scalar (C.fmtN e.2))))]
    ++ (if free.length > 0 then [(kFree, .seq (free.map .text))] else [])
    ++ [(kInput, .seq (cfg.bins.map (binV C))), (kModel, .map (modelV C cfg s f))]

theorem load_anchors (as : List (Name × Name)) (env : Env) :
    ∃ env', load env (.seq (as.zipIdx.map fun x =>
      shareDoc kAnchor sameAnchor anchorV as x.2 x.1))
      = some (.seq (as.map anchorV), env') := by
  obtain ⟨env', h⟩ := loadSeq_share (pref := kAnchor)
    (same := sameAnchor) (f := anchorV) (l := as)
    (shareDoc kAnchor sameAnchor anchorV as) anchorV
    (fun i x env hx hk => load_shareDoc (fun x y h => by
      rw [sameAnchor, Bool.and_eq_true, decide_eq_true_eq, decide_eq_true_eq] at h
      have : x = y := Prod.ext h.1 h.2
      subst this
      exact ⟨fun _ => rfl, rfl⟩) hx hk) env
  refine ⟨env', ?_⟩
  rw [load, h]
  rfl

theorem load_config (C : Codec) (cfg : Config) (s : Store) (quality : List (Name × Num)) (free : List Name)
    {f : V} (hf : writeFsmd C cfg.fsmd s = .ok [(kFsmd, .plain f)]) :
    ∃ doc env, writeConfig C cfg s quality free = .ok doc ∧
      load [] doc = some (.map (rootV C cfg s quality free f), env) := by
  obtain ⟨env1, h1⟩ := loadSeq_share (pref := kWaveset) (same := sameWaves)
    (f := fun b => .seq (b.waves.map (writeWave C))) (l := cfg.bins) (writeBin C cfg.bins) (binV C)
    (fun i x env hx hk => load_bin C cfg.bins hx hk) []
  obtain ⟨env2, h2⟩ := load_anchors cfg.anchors env1
  have hq : writeQuality C quality ++ writeFree free
      = plains ([(kQuality, V.map (quality.map fun e => (e.1, .scalar (C.fmtN e.2))))]
        ++ (if free.length > 0 then [(kFree, .seq (free.map .text))] else [])) := by
    unfold writeQuality writeFree
    rw [plains, List.map_append]
    congr 1
    by_cases h : free.length > 0
    · rw [if_pos h, if_pos h]; rfl
    · rw [if_neg h, if_neg h]; rfl
  have hm : load env1 (.map (writeAnchors cfg.anchors
      ++ [(kComponents, .plain (.seq (cfg.comps.map (writeComp C s))))] ++ [(kFsmd, .plain f)]))
      = some (.map (modelV C cfg s f), env2) := by
    unfold writeAnchors modelV
    rw [load]
    dsimp only [List.cons_append, List.nil_append]
    rw [loadMap]
    rw [h2]
    dsimp only [Option.bind_some]
    rw [loadMap, load]
    dsimp only [Option.bind_some]
    rw [loadMap, load]
    dsimp only [Option.bind_some]
    rw [loadMap]
    rfl
  refine ⟨_, env2, by unfold writeConfig; rw [hf, Outcome.ok_bind], ?_⟩
  unfold writeInput rootV
  rw [hq, List.append_assoc, load, loadMap_append, loadMap_plain]
  dsimp only [Option.bind_some]
  rw [show ([(kInput, Doc.seq (cfg.bins.zipIdx.map fun x => writeBin C cfg.bins x.2 x.1))]
    ++ [(kModel, Doc.map (writeAnchors cfg.anchors
      ++ [(kComponents, .plain (.seq (cfg.comps.map (writeComp C s))))] ++ [(kFsmd, .plain f)]))] :
      List (Name × Doc)) = (kInput, Doc.seq (cfg.bins.zipIdx.map fun x => writeBin C cfg.bins x.2 x.1)) ::
      [(kModel, Doc.map (writeAnchors cfg.anchors
        ++ [(kComponents, .plain (.seq (cfg.comps.map (writeComp C s))))] ++ [(kFsmd, .plain f)]))] from rfl,
    loadMap, load, h1]
  dsimp only [Option.bind_some, Option.map_some]
  rw [loadMap, hm]
  dsimp only [Option.bind_some]
  rw [loadMap]
  rfl

/-! ### reading what was loaded -/

theorem readAnchors_write (as : List (Name × Name)) : (as.map anchorV).mapM readAnchor = .ok as := by
  induction as with
  | nil => rfl
  | cons a as ih => rw [List.map_cons, List.mapM_cons, ih]; rfl

theorem readBins_write {C : Codec} (hC : C.Faithful) : ∀ (bins : List BinC),
    (∀ b ∈ bins, (b.waves.map (·.name)).Nodup) →
    (bins.map (binV C)).mapM (readBin C) = .ok (bins.map normBin)
  | [], _ => rfl
  | b :: bins, h => by
    rw [List.map_cons, List.mapM_cons, readBin_binV hC b (h b List.mem_cons_self), Outcome.ok_bind,
      readBins_write hC bins (fun b' hb' => h b' (List.mem_cons_of_mem _ hb'))]
    rfl

theorem inputOf_norm {dat : List BinC → Input} {bins : List BinC}
    (hdat : dat (bins.map normBin) = dat bins) : inputOf dat (bins.map normBin) = inputOf dat bins := by
  unfold inputOf
  have hw : (bins.map normBin).map (fun b => b.waves.map (·.name)) = bins.map fun b => b.waves.map (·.name) := by
    rw [List.map_map]
    refine List.map_congr_left fun b _ => ?_
    unfold normBin
    simp only [Function.comp, List.map_map]
    rfl
  rw [hdat, hw]

/-! ### the property -/

/-- `cfg'` is the configuration `cfg` with the values, errors, quality and release order that were
written -/
structure Restored (cfg : Config) (s : Store) (quality : List (Name × Num)) (free : List Name)
    (cfg' : Config) : Prop where
  quality : cfg'.quality = quality
  free : cfg'.free = free
  /-- the bins, their files, waves, systematics; a negative mass limit is `-1` -/
  bins : cfg'.bins = cfg.bins.map normBin
  anchors : cfg'.anchors = cfg.anchors
  /-- types, channels, constants, step sizes, limits and fix flags, with the written values and errors
  as start values -/
  comps : cfg'.comps = cfg.comps.map fun c => { c with
    pars := c.pars.zipIdx.map fun x =>
      { x.1 with start := s.P.par c.core.id x.2, error := s.E c.core.id x.2 } }
  fsmd : cfg'.fsmd = cfg.fsmd.map fun f => { f with
    bins := f.bins.zipIdx.map fun x => { x.1 with
      pars := x.1.pars.zipIdx.map fun y =>
        { y.1 with start := s.P.par f.core.id (f.core.parIndex.getD x.2 0 + y.2)
                   error := s.E f.core.id (f.core.parIndex.getD x.2 0 + y.2) } } }
  /-- the model that is fitted, with its components, couplings, branchings and anchors -/
  model : cfg'.model = cfg.model
  /-- the values in the parameter store -/
  pars : ∀ i c, cfg.comps[i]? = some c → ∀ k < c.pars.length,
    cfg'.store.P.par i k = s.P.par i k ∧ cfg'.store.E i k = s.E i k
  couplings : ∀ i c, cfg.comps[i]? = some c → ∀ k < c.core.maps.nrCoup, ∀ b ∈ c.core.coupBins k,
    cfg'.store.P.coup i k b = s.P.coup i k b
  branchings : ∀ i c, cfg.comps[i]? = some c → ∀ ch < c.core.channels.length,
    cfg'.store.P.br i (c.core.maps.chanBr.getD ch 0)
      = if c.core.maps.brFixed.getD (c.core.maps.chanBr.getD ch 0) false then 1
        else s.P.br i (c.core.maps.chanBr.getD ch 0)
  fsmdPars : ∀ f, cfg.fsmd = some f → ∀ i b, f.bins[i]? = some b → ∀ k < b.pars.length,
    cfg'.store.P.par f.core.id (f.core.parIndex.getD i 0 + k)
      = s.P.par f.core.id (f.core.parIndex.getD i 0 + k) ∧
    cfg'.store.E f.core.id (f.core.parIndex.getD i 0 + k)
      = s.E f.core.id (f.core.parIndex.getD i 0 + k)

theorem upd_comps (s : Store) (cs : List Comp) :
    cs.map (Comp.upd s) = cs.map fun c => { c with
      pars := c.pars.zipIdx.map fun x =>
        { x.1 with start := s.P.par c.core.id x.2, error := s.E c.core.id x.2 } } := by
  refine List.map_congr_left fun c _ => ?_
  unfold Comp.upd updPars Par.upd
  simp only [Nat.zero_add]

theorem written_ok {S : Setup} {C : Codec} (hC : C.Faithful) {dat : List BinC → Input} {cfg : Config}
    (hcfg : CfgOk S dat cfg) (hdat : dat (cfg.bins.map normBin) = dat cfg.bins) {f : FsmdC}
    (hf : cfg.fsmd = some f) (hn : ∀ b ∈ f.bins, NamesOk S b.text) (s : Store)
    (hE : ∀ i k, ErrOk C (s.E i k)) {quality : List (Name × Num)} (hq : (quality.map (·.1)).Nodup)
    (free : List Name) :
    ∃ doc v env cfg', writeConfig C cfg s quality free = .ok doc ∧ load [] doc = some (v, env) ∧
      readConfig S C dat v = .ok cfg' ∧ Restored cfg s quality free cfg' := by
  have hfo := hcfg.fsmd f hf
  obtain ⟨fv, hw, hrd⟩ := readFsmd_write hC hfo hn s hE
  obtain ⟨doc, env, hwr, hld⟩ := load_config C cfg s quality free (f := fv) (by rw [hf]; exact hw)
  have hI := inputOf_norm (dat := dat) (bins := cfg.bins) hdat
  have ht : (cfg.bins.map normBin).map (·.tMean) = cfg.bins.map (·.tMean) := by
    rw [List.map_map]; rfl
  obtain ⟨s1, hcs, hrow⟩ := readComps_write (S := S) hC s hE hcfg.comps hcfg.names
    (m := modelV C cfg s fv) rfl Store.empty
  obtain ⟨s2, hfs, hfr, hframe⟩ := hrd (modelV C cfg s fv) rfl s1
  have hroot : rootV C cfg s quality free fv = [(kQuality, .map (quality.map fun e =>
      (e.1, .scalar (C.fmtN e.2))))] ++ ((if free.length > 0 then [(kFree, .seq (free.map .text))] else [])
      ++ [(kInput, .seq (cfg.bins.map (binV C))), (kModel, .map (modelV C cfg s fv))]) := by
    unfold rootV
    rw [List.append_assoc]
  have hfree : ∀ x ∈ [kInput, kModel], x ∉ ((if free.length > 0 then
      [(kFree, V.seq (free.map .text))] else []).map (·.1)) := by
    intro x hx
    split
    · revert x
      show ∀ x ∈ [kInput, kModel], x ∉ [kFree]
      decide +kernel
    · exact List.not_mem_nil
  have hread : readConfig S C dat (.map (rootV C cfg s quality free fv)) = .ok
      ⟨quality, free, cfg.bins.map normBin, cfg.anchors, cfg.comps.map (Comp.upd s), some (f.upd s), cfg.model,
        s2⟩ := by
    unfold readConfig
    rw [readQuality_ok hC hq rfl, Outcome.ok_bind, readFree_ok (free := free) (by
      rw [hroot, lookup_skip (show kFree ∉ [kQuality] by decide +kernel)]
      split
      · rfl
      · rfl), Outcome.ok_bind]
    unfold readInput
    rw [mand_map (w := .seq (cfg.bins.map (binV C))) _ (by
      rw [hroot, lookup_skip (show kInput ∉ [kQuality] by decide +kernel),
        lookup_skip (hfree kInput (by decide +kernel))]
      rfl)]
    show ((cfg.bins.map (binV C)).mapM (readBin C) >>= _) = _
    rw [readBins_write hC cfg.bins hcfg.waves, Outcome.ok_bind, hI, ht]
    unfold readModel
    rw [mand_map (w := .map (modelV C cfg s fv)) _ (by
      rw [hroot, lookup_skip (show kModel ∉ [kQuality] by decide +kernel),
        lookup_skip (hfree kModel (by decide +kernel))]
      rfl)]
    unfold readAnchors
    rw [mand_map (w := .seq (cfg.anchors.map anchorV)) _ rfl]
    show (((cfg.anchors.map anchorV).mapM readAnchor >>= _) >>= _) = _
    rw [readAnchors_write, Outcome.ok_bind, hcs, Outcome.ok_bind]
    dsimp only
    rw [List.length_map, hfs, Outcome.ok_bind]
    dsimp only
    have hm := hcfg.model
    rw [hf] at hm
    rw [show (cfg.comps.map (Comp.upd s)).map (·.core) = cfg.comps.map (·.core) by rw [List.map_map]; rfl,
      show (some (f.upd s)).map (·.core) = (some f).map (·.core) from rfl, hm, Outcome.ok_bind,
      Outcome.ok_bind]
  refine ⟨doc, _, env, _, hwr, hld, hread, ?_⟩
  have hid : f.core.id = cfg.comps.length := by
    rcases hfo.made with ⟨b, _, h⟩ | h
    · unfold ResFit.mkFsmdSame at h
      obtain ⟨_, _, e⟩ := Option.map_eq_some_iff.mp h
      rw [← e]
    · unfold ResFit.mkFsmdPerBin at h
      split at h
      · cases h
      · have := Option.some.inj h
        rw [← this]
  have hrow' : ∀ i c, cfg.comps[i]? = some c → RowOk c i s s2 := fun i c hc =>
    (hrow i c hc).frame hframe (Nat.ne_of_lt (List.getElem?_eq_some_iff.mp hc).1)
  refine ⟨rfl, rfl, rfl, rfl, ?_, ?_, rfl, fun i c hc => (hrow' i c hc).par,
    fun i c hc => (hrow' i c hc).coup, fun i c hc => (hrow' i c hc).br, ?_⟩
  · exact upd_comps s cfg.comps
  · rw [hf]
    rfl
  · intro g hg
    rw [hf] at hg
    cases hg
    exact hfr

/-- **C77.** A configuration that was read, with the values `s.P` and errors `s.E` of the parameters, the
quality and the release order of a fit, is written such that it can be loaded and read again, and what is
read is that configuration with these values, errors, quality and release order. -/
theorem round_trip {S : Setup} {C : Codec} (hC : C.Faithful) {dat : List BinC → Input} {root : V} {cfg : Config}
    (hcfg : readConfig S C dat root = .ok cfg) (hdat : dat (cfg.bins.map normBin) = dat cfg.bins) {f : FsmdC}
    (hf : cfg.fsmd = some f)
    (hn : ∀ b ∈ f.bins, (S.formula b.text).1.Nodup ∧ "formula".toList ∉ (S.formula b.text).1) (s : Store)
    (hE : ∀ i k, s.E i k = .inf → C.parseN (C.fmtN .inf) = some .inf) {quality : List (Name × Num)}
    (hq : (quality.map (·.1)).Nodup) (free : List Name) :
    ∃ doc v env cfg', writeConfig C cfg s quality free = .ok doc ∧ load [] doc = some (v, env) ∧
      readConfig S C dat v = .ok cfg' ∧ Restored cfg s quality free cfg' :=
  written_ok hC (readConfig_ok hcfg) hdat hf hn s hE hq free

/-! ### the start values of the next fit -/

theorem mkModel_comps {I : Input} {comps : List Component} {fs : Option Fsmd} {as : List (Name × Name)}
    {M : Model} (h : mkModel I comps fs as = .ok M) : M.comps = comps ∧ M.fsmd = fs := by
  unfold mkModel at h
  split at h
  · cases h
  split at h
  · cases h
  obtain ⟨x, _, e⟩ := Option.map_eq_some_iff.mp (need_ok h)
  rw [← e]
  exact ⟨rfl, rfl⟩

theorem flatMap_congr' {α β : Type} {l : List α} {f g : α → List β} (h : ∀ a ∈ l, f a = g a) :
    l.flatMap f = l.flatMap g := by
  induction l with
  | nil => rfl
  | cons a l ih =>
    rw [List.flatMap_cons, List.flatMap_cons, h a List.mem_cons_self,
      ih fun b hb => h b (List.mem_cons_of_mem _ hb)]

theorem start_values {S : Setup} {dat : List BinC → Input} {cfg : Config} (hcfg : CfgOk S dat cfg) {s : Store}
    {quality : List (Name × Num)} {free : List Name} {cfg' : Config} (h : Restored cfg s quality free cfg') :
    ResFit.startValues cfg'.model cfg'.store.P = ResFit.startValues cfg.model s.P := by
  rw [h.model]
  obtain ⟨hc, hf⟩ := mkModel_comps hcfg.model
  have hcomp : ∀ ic ∈ List.range cfg.model.comps.length, ∃ c, cfg.comps[ic]? = some c ∧
      cfg.model.comp ic = c.core := by
    intro ic hic
    rw [hc, List.length_map, List.mem_range] at hic
    refine ⟨cfg.comps[ic], List.getElem?_eq_getElem hic, ?_⟩
    unfold Model.comp
    rw [hc, List.getD_eq_getElem _ _ (by rw [List.length_map]; exact hic), List.getElem_map]
  unfold ResFit.startValues
  congr 1
  · congr 1
    · congr 1
      · refine flatMap_congr' fun ic hic => ?_
        obtain ⟨c, hci, e⟩ := hcomp ic hic
        rw [e]
        refine flatMap_congr' fun k hk => flatMap_congr' fun b hb => ?_
        rw [h.couplings ic c hci k (List.mem_range.mp hk) b hb]
      · refine flatMap_congr' fun ic hic => ?_
        obtain ⟨c, hci, e⟩ := hcomp ic hic
        rw [e]
        refine flatMap_congr' fun k hk => ?_
        have hk := List.mem_range.mp hk
        by_cases hfix : c.core.maps.brFixed.getD k false = true
        · rw [if_pos hfix, if_pos hfix]
        · have hm := (hcfg.comps ic c hci).mapsG
          rw [if_neg hfix, if_neg hfix]
          have h1 : 1 < c.core.maps.nrBr := by
            rcases hm.br with h | h
            · exact h.1
            · exact absurd (by rw [show k = 0 by omega]; exact h.2.2) hfix
          obtain ⟨a1, a2⟩ := hm.all h1
          have hb := h.branchings ic c hci k (by omega)
          rw [a2 k (by omega), if_neg hfix] at hb
          rw [hb]
    · refine flatMap_congr' fun ic hic => ?_
      obtain ⟨c, hci, e⟩ := hcomp ic hic
      rw [e, (hcfg.comps ic c hci).nrParams]
      refine List.map_congr_left fun k hk => ?_
      rw [(h.pars ic c hci k (List.mem_range.mp hk)).1]
  · rw [hf]
    cases hfs : cfg.fsmd with
    | none => rfl
    | some f =>
      dsimp only [Option.map_some]
      have hfo := hcfg.fsmd f hfs
      have hlen : cfg.model.comps.length = f.core.id ∧ ∀ b ∈ List.range f.core.nrFn, ∃ x,
          f.bins[b]? = some x ∧ x.pars.length = (f.core.fn b).npar := by
        rw [hc, List.length_map]
        have hnp : ∀ b ∈ f.bins, b.pars.length = (S.fn b.text).npar := fun b hb => by
          have := congrArg List.length (hfo.pars b hb)
          rw [List.length_map] at this
          exact this
        rcases hfo.made with ⟨b, hb, h⟩ | h
        · unfold ResFit.mkFsmdSame at h
          obtain ⟨_, _, e⟩ := Option.map_eq_some_iff.mp h
          rw [← e]
          refine ⟨rfl, fun i hi => ⟨b, ?_⟩⟩
          have hi0 : i = 0 := by
            have := List.mem_range.mp hi
            unfold Fsmd.nrFn at this
            rw [if_pos rfl] at this
            omega
          subst hi0
          refine ⟨by rw [hb]; rfl, ?_⟩
          rw [hnp b (by rw [hb]; exact List.mem_cons_self)]
          unfold Fsmd.fn
          dsimp only
          have hnz : 0 < (inputOf dat cfg.bins).nrBins := by
            have hm := hcfg.model
            unfold mkModel at hm
            split at hm
            · cases hm
            rename_i hz
            exact Nat.pos_of_ne_zero fun e => hz (Or.inl e)
          rw [List.getD_eq_getElem _ _ (by rw [List.length_replicate]; exact hnz), List.getElem_replicate]
        · unfold ResFit.mkFsmdPerBin at h
          split at h
          · cases h
          have := Option.some.inj h
          rw [← this]
          refine ⟨rfl, fun i hi => ?_⟩
          have hi : i < f.bins.length := by
            have := List.mem_range.mp hi
            unfold Fsmd.nrFn at this
            rw [if_neg Bool.false_ne_true, List.length_map] at this
            exact this
          refine ⟨f.bins[i], List.getElem?_eq_getElem hi, ?_⟩
          rw [hnp _ (List.getElem_mem hi)]
          unfold Fsmd.fn
          dsimp only
          rw [List.getD_eq_getElem _ _ (by rw [List.length_map]; exact hi), List.getElem_map]
      refine flatMap_congr' fun b hb => ?_
      obtain ⟨x, hx, hnx⟩ := hlen.2 b hb
      refine List.map_congr_left fun k hk => ?_
      rw [← hnx] at hk
      rw [hlen.1, (h.fsmdPars f hfs b x hx k (List.mem_range.mp hk)).1]

/-- the fit that is configured with the written document starts at the written values -/
theorem restart {S : Setup} {C : Codec} (hC : C.Faithful) {dat : List BinC → Input} {root : V} {cfg : Config}
    (hcfg : readConfig S C dat root = .ok cfg) (hdat : dat (cfg.bins.map normBin) = dat cfg.bins) {f : FsmdC}
    (hf : cfg.fsmd = some f)
    (hn : ∀ b ∈ f.bins, (S.formula b.text).1.Nodup ∧ "formula".toList ∉ (S.formula b.text).1) (s : Store)
    (hE : ∀ i k, s.E i k = .inf → C.parseN (C.fmtN .inf) = some .inf) {quality : List (Name × Num)}
    (hq : (quality.map (·.1)).Nodup) (free : List Name) :
    ∃ doc v env cfg', writeConfig C cfg s quality free = .ok doc ∧ load [] doc = some (v, env) ∧
      readConfig S C dat v = .ok cfg' ∧ cfg'.model = cfg.model ∧
      ResFit.startValues cfg'.model cfg'.store.P = ResFit.startValues cfg.model s.P := by
  obtain ⟨doc, v, env, cfg', h1, h2, h3, h4⟩ := round_trip hC hcfg hdat hf hn s hE hq free
  exact ⟨doc, v, env, cfg', h1, h2, h3, h4.model, start_values (readConfig_ok hcfg) h4⟩

/-! ### without a final-state mass dependence -/

/-- A configuration can be written only if it has a final-state mass dependence: the writer uses the
pointer to it without a check. -/
theorem write_needs_fsmd {S : Setup} {C : Codec} {dat : List BinC → Input} {root : V} {cfg : Config}
    (hcfg : readConfig S C dat root = .ok cfg) (s : Store) (quality : List (Name × Num)) (free : List Name) :
    (cfg.fsmd = none → writeConfig C cfg s quality free = .ub) ∧
    (cfg.fsmd ≠ none → ∃ doc, writeConfig C cfg s quality free = .ok doc) := by
  refine ⟨fun h => ?_, fun h => ?_⟩
  · unfold writeConfig writeFsmd
    rw [h]
    rfl
  · obtain ⟨f, hf⟩ := Option.ne_none_iff_exists'.mp h
    have hfo := (readConfig_ok hcfg).fsmd f hf
    have : ∃ l, writeFsmd C cfg.fsmd s = .ok l := by
      rw [hf]
      unfold writeFsmd
      dsimp only
      split
      · rcases hfo.made with ⟨b, hb, _⟩ | hm
        · rw [hb]; exact ⟨_, rfl⟩
        · rename_i hs
          unfold ResFit.mkFsmdPerBin at hm
          split at hm
          · cases hm
          · have := Option.some.inj hm
            rw [← this] at hs
            cases hs
      · exact ⟨_, rfl⟩
    obtain ⟨l, hl⟩ := this
    unfold writeConfig
    rw [hl]
    exact ⟨_, rfl⟩

end Rpwa.ResCfg
