import Verif.Props.ResFitConfig
import Verif.Props.ResonanceFit
import Verif.Spec.ResFitMinimize

/-!
# Lemmas on the steps of a resonance-model fit (C78)
-/

namespace Rpwa.ResMin

open ResFit (Name Params St Component Channel Fsmd Model Input)
open ResFit.Spec (Entry layout entry startOf IsAnchor coupEntries brEntries parEntries fsmdEntries)
open ResCfg (Config Par Num Comp FsmdC FsmdBin Setup BinC CfgOk inputOf Store)
open Spec (IsVar Released limitsOf parOf)

/-! ### the two models of the reader of configurations -/

/-- a component as the reader of `Model/ResonanceFit` sees it -/
def compCfg (c : Comp) : ResFit.CompCfg := ⟨c.core.name, c.core.shape, c.core.channels.map (·.waveName)⟩

theorem mkComponent_of {S : Setup} {I : Input} {t : List ℝ} {id : ℕ} {c : Comp}
    (h : ResCfg.CompOk S I t id c) :
    ResFit.mkComponent I S.useBranchings id (compCfg c).name (compCfg c).shape (compCfg c).chans
      = some c.core := by
  obtain ⟨h1, _, _, _, h5, h6, _, h8⟩ := ResCfg.build_id h.built
  unfold ResFit.mkComponent compCfg
  dsimp only
  rw [h5]
  dsimp only [Option.bind_some]
  rw [h6]
  dsimp only [Option.bind_some]
  rw [h8]
  dsimp only [Option.map_some]
  rw [← h1]

theorem readComponents_of {S : Setup} {I : Input} {t : List ℝ} {cs : List Comp}
    (h : ∀ i c, cs[i]? = some c → ResCfg.CompOk S I t i c) (hn : (cs.map (·.core.name)).Nodup) :
    ResFit.readComponents I S.useBranchings (cs.map compCfg) = some (cs.map (·.core)) := by
  unfold ResFit.readComponents
  have key : ∀ (suf pre : List Comp), pre ++ suf = cs →
      (suf.map compCfg).foldlM (fun acc cfg =>
        (ResFit.mkComponent I S.useBranchings acc.length cfg.name cfg.shape cfg.chans).bind fun c =>
          if acc.any (fun c' => c'.name = c.name) then none else some (acc ++ [c])) (pre.map (·.core))
        = some (cs.map (·.core)) := by
    intro suf
    induction suf with
    | nil => intro pre e; rw [List.append_nil] at e; subst e; rfl
    | cons c suf ih =>
      intro pre e
      rw [List.map_cons, List.foldlM_cons]
      have hc : cs[pre.length]? = some c := by
        rw [← e, List.getElem?_append_right (le_refl _), Nat.sub_self]
        rfl
      rw [List.length_map, mkComponent_of (h _ _ hc)]
      dsimp only [Option.bind_some]
      have hnot : (pre.map (·.core)).any (fun c' => c'.name = c.core.name) = false := by
        rw [Bool.eq_false_iff]
        intro ha
        rw [List.any_map, List.any_eq_true] at ha
        obtain ⟨c', hc', hname⟩ := ha
        have hname : c'.core.name = c.core.name := by simpa using hname
        rw [← e, List.map_append, List.map_cons] at hn
        have := List.disjoint_of_nodup_append hn
        exact this (List.mem_map.mpr ⟨c', hc', rfl⟩) (by rw [hname]; exact List.mem_cons_self)
      rw [hnot, if_neg Bool.false_ne_true]
      have := ih (pre ++ [c]) (by rw [List.append_assoc]; exact e)
      rw [List.map_append] at this
      exact this
  exact key cs [] rfl

/-- A configuration that has been read describes a model as `ResFit.readModel` reads it, so that what is
proved about those models holds. -/
theorem read_bridge {S : Setup} {dat : List BinC → Input} {cfg : Config} (h : CfgOk S dat cfg) :
    ∃ rc, ResFit.readModel (inputOf dat cfg.bins) rc = some cfg.model := by
  have hm := h.model
  unfold ResCfg.mkModel at hm
  split at hm
  · cases hm
  rename_i h1
  split at hm
  · cases hm
  rename_i h2
  have hm := ResCfg.need_ok hm
  simp only [not_or, not_not] at h1
  obtain ⟨fc, hfc⟩ : ∃ fc, ResFit.readFsmd (inputOf dat cfg.bins) cfg.comps.length fc
      = some (cfg.fsmd.map (·.core)) := by
    cases hf : cfg.fsmd with
    | none => exact ⟨.absent, rfl⟩
    | some f =>
      rcases (h.fsmd f hf).made with ⟨b, _, hb⟩ | hb
      · exact ⟨.same (S.fn b.text), by unfold ResFit.readFsmd; dsimp only; rw [hb]; rfl⟩
      · exact ⟨.perBin (f.bins.map fun b => S.fn b.text), by unfold ResFit.readFsmd; dsimp only; rw [hb]; rfl⟩
  have hu : ResFit.wavesUnique (inputOf dat cfg.bins) = true := by
    unfold ResFit.wavesUnique inputOf
    dsimp only
    rw [List.all_map, List.all_eq_true]
    intro b hb
    exact decide_eq_true (h.waves b hb)
  refine ⟨⟨cfg.comps.map compCfg, fc, cfg.anchors, S.useBranchings⟩, ?_⟩
  unfold ResFit.readModel
  rw [if_neg (by rw [hu]; simp only [not_or, not_not]; exact ⟨h1.1, h1.2.1, h1.2.2, by decide⟩)]
  dsimp only
  rw [readComponents_of h.comps h.names]
  dsimp only [Option.bind_some]
  rw [List.length_map, hfc]
  dsimp only [Option.bind_some]
  rw [if_neg h2]
  exact hm

/-! ### what the model has in common with the configuration -/

theorem cfg_comps {S : Setup} {dat : List BinC → Input} {cfg : Config} (h : CfgOk S dat cfg) :
    cfg.model.comps = cfg.comps.map (·.core) ∧ cfg.model.fsmd = cfg.fsmd.map (·.core) :=
  ResCfg.mkModel_comps h.model

theorem cfg_comp {S : Setup} {dat : List BinC → Input} {cfg : Config} (h : CfgOk S dat cfg) {i : ℕ}
    {c : Comp} (hc : cfg.comps[i]? = some c) : cfg.model.comp i = c.core ∧ c.core.id = i := by
  refine ⟨?_, (ResCfg.build_id (h.comps i c hc).built).1⟩
  obtain ⟨hi, e⟩ := List.getElem?_eq_some_iff.mp hc
  unfold Model.comp
  rw [(cfg_comps h).1, List.getD_eq_getElem _ _ (by rw [List.length_map]; exact hi), List.getElem_map, e]

theorem cfg_bins_pos {S : Setup} {dat : List BinC → Input} {cfg : Config} (h : CfgOk S dat cfg) :
    0 < (inputOf dat cfg.bins).nrBins := by
  have hm := h.model
  unfold ResCfg.mkModel at hm
  split at hm
  · cases hm
  · rename_i hz
    exact Nat.pos_of_ne_zero fun e => hz (Or.inl e)

theorem fsmd_facts {S : Setup} {dat : List BinC → Input} {cfg : Config} (h : CfgOk S dat cfg) {f : FsmdC}
    (hf : cfg.fsmd = some f) : f.core.id = cfg.comps.length ∧ f.bins.length = f.core.nrFn ∧
      ∀ i b, f.bins[i]? = some b → b.pars.length = (f.core.fn i).npar := by
  have hfo := h.fsmd f hf
  have hnp : ∀ b ∈ f.bins, b.pars.length = (S.fn b.text).npar := fun b hb => by
    have := congrArg List.length (hfo.pars b hb)
    rw [List.length_map] at this
    exact this
  rcases hfo.made with ⟨b, hb, hm⟩ | hm
  · unfold ResFit.mkFsmdSame at hm
    obtain ⟨_, _, e⟩ := Option.map_eq_some_iff.mp hm
    rw [← e]
    refine ⟨rfl, by rw [hb]; rfl, fun i b' hi => ?_⟩
    rw [hnp b' (List.mem_of_getElem? hi)]
    rw [hb] at hi
    obtain ⟨h1, h2⟩ := List.getElem?_eq_some_iff.mp hi
    have hi0 : i = 0 := by rw [List.length_singleton] at h1; omega
    subst hi0
    rw [← h2]
    unfold Fsmd.fn
    dsimp only
    rw [List.getD_eq_getElem _ _ (by rw [List.length_replicate]; exact cfg_bins_pos h),
      List.getElem_replicate]
    rfl
  · unfold ResFit.mkFsmdPerBin at hm
    split at hm
    · cases hm
    have := Option.some.inj hm
    rw [← this]
    refine ⟨rfl, ?_, fun i b hi => ?_⟩
    · unfold Fsmd.nrFn
      rw [if_neg Bool.false_ne_true, List.length_map]
    · rw [hnp b (List.mem_of_getElem? hi)]
      obtain ⟨h1, h2⟩ := List.getElem?_eq_some_iff.mp hi
      unfold Fsmd.fn
      dsimp only
      rw [List.getD_eq_getElem _ _ (by rw [List.length_map]; exact h1), List.getElem_map, h2]

theorem flatMap_get {α β : Type} (g : α → List β) : ∀ (l : List α) (i j : ℕ) (a : α), l[i]? = some a →
    j < (g a).length → (l.flatMap g)[((l.take i).map fun x => (g x).length).sum + j]? = (g a)[j]?
  | [], i, j, a, h, _ => by cases h
  | x :: l, 0, j, a, h, hj => by
    cases h
    rw [List.flatMap_cons, List.take_zero, List.map_nil, List.sum_nil, Nat.zero_add,
      List.getElem?_append_left hj]
  | x :: l, i + 1, j, a, h, hj => by
    rw [List.getElem?_cons_succ] at h
    rw [List.flatMap_cons, List.take_succ_cons, List.map_cons, List.sum_cons, Nat.add_assoc,
      List.getElem?_append_right (Nat.le_add_right _ _), Nat.add_sub_cancel_left]
    exact flatMap_get g l i j a h hj

theorem parOf_comp {cfg : Config} {i k : ℕ} {c : Comp} (hc : cfg.comps[i]? = some c) :
    parOf cfg i k = c.pars[k]? := by
  unfold parOf
  rw [hc]

theorem parOf_fsmd {S : Setup} {dat : List BinC → Input} {cfg : Config} (h : CfgOk S dat cfg) {f : FsmdC}
    (hf : cfg.fsmd = some f) {i j : ℕ} {b : FsmdBin} (hb : f.bins[i]? = some b) (hj : j < b.pars.length) :
    parOf cfg cfg.comps.length (f.core.parIndex.getD i 0 + j) = b.pars[j]? := by
  obtain ⟨_, h2, h3⟩ := fsmd_facts h hf
  obtain ⟨rc, hrc⟩ := read_bridge h
  have hfm : cfg.model.fsmd = some f.core := by rw [(cfg_comps h).2, hf]; rfl
  have hok := ((ResFit.readModel_ok hrc).fsmd f.core hfm).ok
  have hi : i < f.bins.length := (List.getElem?_eq_some_iff.mp hb).1
  unfold parOf
  rw [List.getElem?_eq_none (le_refl _)]
  dsimp only
  rw [hf]
  dsimp only
  rw [if_pos rfl, hok.index i (by rw [← h2]; exact hi)]
  have hs : ((List.range i).map fun i => (f.core.fn i).npar) = (f.bins.take i).map fun x => x.pars.length := by
    refine List.ext_getElem (by rw [List.length_map, List.length_map, List.length_range, List.length_take]; omega) fun n h1 h2' => ?_
    rw [List.getElem_map, List.getElem_map, List.getElem_range, List.getElem_take]
    have hn : n < f.bins.length := by
      rw [List.length_map, List.length_range] at h1
      omega
    exact (h3 n _ (List.getElem?_eq_getElem hn)).symm
  rw [hs]
  exact flatMap_get (·.pars) f.bins i j b hb hj

/-! ### the variables -/

theorem forall₂_append {α β : Type} {R : α → β → Prop} {a c : List α} {b d : List β}
    (h1 : List.Forall₂ R a b) (h2 : List.Forall₂ R c d) : List.Forall₂ R (a ++ c) (b ++ d) := by
  induction h1 with
  | nil => exact h2
  | cons h _ ih => exact .cons h ih

theorem forall₂_flatMap {α β γ : Type} {R : β → γ → Prop} {f : α → List β} {g : α → List γ} :
    ∀ {l : List α}, (∀ a ∈ l, List.Forall₂ R (f a) (g a)) → List.Forall₂ R (l.flatMap f) (l.flatMap g)
  | [], _ => .nil
  | a :: l, h => by
    rw [List.flatMap_cons, List.flatMap_cons]
    exact forall₂_append (h a List.mem_cons_self) (forall₂_flatMap fun b hb => h b (List.mem_cons_of_mem _ hb))

theorem anyOf_iff {ws keys : List Name} : anyOf ws keys = true ↔ ∃ w ∈ ws, w ∈ keys := by
  unfold anyOf
  rw [List.any_eq_true]
  constructor
  · rintro ⟨k, hk, h⟩
    exact ⟨k, List.contains_iff_mem.mp h, hk⟩
  · rintro ⟨w, hw, hk⟩
    exact ⟨w, hk, List.contains_iff_mem.mpr hw⟩

theorem plainVar_free (name : Name) (x : ℝ) (free : Bool) : (plainVar name x free).isFree = free := by
  cases free <;> rfl

theorem parVar_free (name : Name) (x : ℝ) (p : Par) (free : Bool) : (parVar name x p free).isFree = free := by
  cases free <;> rfl

theorem plainVar_kind {name : Name} {x : ℝ} {free : Bool} (h : (plainVar name x free).isFree = true) :
    (plainVar name x free).kind = .free 0.1 none none := by
  rw [plainVar_free] at h
  rw [h]
  rfl

theorem parVar_kind {name : Name} {x : ℝ} {p : Par} {free : Bool} (h : (parVar name x p free).isFree = true) :
    (parVar name x p free).kind = .free p.step p.lower p.upper := by
  rw [parVar_free] at h
  rw [h]
  rfl

theorem coupFree_iff {ws : List Name} {c : Component} {k b : ℕ} : coupFree ws c k b = true ↔
    ∃ w ∈ ws, w = "*".toList ∨ w = "coupling".toList ∨ w = coupBinName b ∨ w = coupName c k b := by
  unfold coupFree
  rw [anyOf_iff]
  simp only [List.mem_cons, List.not_mem_nil, or_false]

theorem brFree_iff {ws : List Name} {c : Component} {k : ℕ} : brFree ws c k = true ↔
    ∃ w ∈ ws, w = "*".toList ∨ w = "branching".toList ∨ w = brName c k := by
  unfold brFree
  rw [anyOf_iff]
  simp only [List.mem_cons, List.not_mem_nil, or_false]

theorem parFree_iff {ws : List Name} {c : Component} {p : Par} : parFree ws c p = true ↔
    p.fixed = false ∧ ∃ w ∈ ws, w = "*".toList ∨ w = c.name ∨ w = p.name ∨ w = parName c p := by
  unfold parFree
  rw [Bool.and_eq_true, anyOf_iff, Bool.not_eq_true', and_comm]
  simp only [List.mem_cons, List.not_mem_nil, or_false]

theorem isAnchor_iff {M : Model} {ic k b : ℕ} (hi : ic < M.comps.length) :
    isAnchor M ic ((M.comp ic).chan ((M.comp ic).maps.fromCoup.getD k 0)) b = true ↔ IsAnchor M ic k b := by
  have h1 : M.comps[ic]? = some (M.comp ic) := by
    unfold Model.comp
    rw [List.getD_eq_getElem _ _ hi, List.getElem?_eq_getElem hi]
  unfold isAnchor IsAnchor
  rw [decide_eq_true_eq]
  constructor
  · rintro ⟨a, b'⟩
    exact ⟨_, h1, b', a⟩
  · rintro ⟨c, hc, b', a⟩
    rw [h1] at hc
    cases hc
    exact ⟨a, b'⟩

theorem coupVars_spec {cfg : Config} (P : Params) (ws : List Name) {ic k b : ℕ}
    (hi : ic < cfg.model.comps.length) :
    List.Forall₂ (IsVar cfg P ws) [.coupRe ic k b, .coupIm ic k b] (coupVars cfg.model P ws ic k b) := by
  unfold coupVars
  dsimp only
  refine .cons ⟨(ResFit.startOf_other (e := .coupRe ic k b) (by simp)).symm, ?_, plainVar_kind⟩ (.cons ?_ .nil)
  · rw [plainVar_free, coupFree_iff]
    exact Iff.rfl
  · by_cases ha : isAnchor cfg.model ic
        ((cfg.model.comp ic).chan ((cfg.model.comp ic).maps.fromCoup.getD k 0)) b = true
    · rw [if_pos ha]
      have han := (isAnchor_iff hi).mp ha
      refine ⟨?_, ?_, plainVar_kind⟩
      · unfold startOf
        rw [if_pos ⟨ic, k, b, rfl, han⟩]
        rfl
      · rw [plainVar_free]
        exact ⟨fun h => absurd h Bool.false_ne_true, fun h => absurd han h.1⟩
    · rw [if_neg ha]
      have han : ¬ IsAnchor cfg.model ic k b := fun h => ha ((isAnchor_iff hi).mpr h)
      refine ⟨?_, ?_, plainVar_kind⟩
      · unfold startOf
        rw [if_neg]
        · rfl
        · rintro ⟨i', k', b', e, h'⟩
          cases e
          exact han h'
      · rw [plainVar_free, coupFree_iff]
        exact ⟨fun h => ⟨han, h⟩, fun h => h.2⟩

theorem brVars_spec {cfg : Config} (P : Params) (ws : List Name) {ic k : ℕ} :
    List.Forall₂ (IsVar cfg P ws)
      (if (cfg.model.comp ic).maps.brFixed.getD k false then [] else [.brRe ic k, .brIm ic k])
      (brVars cfg.model P ws ic k) := by
  unfold brVars
  dsimp only
  by_cases h : (cfg.model.comp ic).maps.brFixed.getD k false = true
  · rw [if_pos h, if_pos h]
    exact .nil
  · rw [if_neg h, if_neg h]
    refine .cons ⟨(ResFit.startOf_other (e := .brRe ic k) (by simp)).symm, ?_, plainVar_kind⟩
      (.cons ⟨(ResFit.startOf_other (e := .brIm ic k) (by simp)).symm, ?_, plainVar_kind⟩ .nil)
    · rw [plainVar_free, brFree_iff]
      exact Iff.rfl
    · rw [plainVar_free, brFree_iff]
      exact Iff.rfl

theorem forall₂_zipIdx {α β γ : Type} {R : β → γ → Prop} {l : List α} {f : ℕ → β} {g : α × ℕ → γ} {n : ℕ}
    (hn : n = l.length) (h : ∀ k a, l[k]? = some a → R (f k) (g (a, k))) :
    List.Forall₂ R ((List.range n).map f) (l.zipIdx.map g) := by
  subst hn
  rw [List.forall₂_iff_get]
  refine ⟨by simp, fun i h1 h2 => ?_⟩
  have hi : i < l.length := by simpa using h1
  have := h i l[i] (List.getElem?_eq_getElem hi)
  simpa using this

theorem startOf_par (M : Model) (P : Params) (id k : ℕ) : startOf M P (.par id k) = P.par id k :=
  ResFit.startOf_other (by simp)

theorem limitsOf_par {cfg : Config} {id k : ℕ} {p : Par} (h : parOf cfg id k = some p) :
    limitsOf cfg (.par id k) = (p.step, p.lower, p.upper) := by
  unfold limitsOf
  dsimp only
  rw [h]

theorem compVars_spec {S : Setup} {dat : List BinC → Input} {cfg : Config} (h : CfgOk S dat cfg) (P : Params)
    (ws : List Name) {i : ℕ} {c : Comp} (hc : cfg.comps[i]? = some c) :
    List.Forall₂ (IsVar cfg P ws) (parEntries c.core) (compVars P ws i c) := by
  obtain ⟨h1, h2⟩ := cfg_comp h hc
  unfold parEntries compVars
  refine forall₂_zipIdx (h.comps i c hc).nrParams fun k p hp => ?_
  have hpo : parOf cfg i k = some p := (parOf_comp hc).trans hp
  rw [h2]
  refine ⟨(startOf_par _ _ _ _).symm, ?_, fun hfr => ?_⟩
  · rw [parVar_free, parFree_iff]
    constructor
    · rintro ⟨a, b⟩
      exact ⟨p, hpo, a, fun _ => by rw [h1]; exact b⟩
    · rintro ⟨p', hp', a, b⟩
      rw [hpo] at hp'
      cases hp'
      have := b (List.getElem?_eq_some_iff.mp hc).1
      rw [h1] at this
      exact ⟨a, this⟩
  · rw [limitsOf_par hpo]
    exact parVar_kind hfr

theorem fsmdVars_spec {S : Setup} {dat : List BinC → Input} {cfg : Config} (h : CfgOk S dat cfg) (P : Params)
    (ws : List Name) {f : FsmdC} (hf : cfg.fsmd = some f) {i : ℕ} {b : FsmdBin} (hb : f.bins[i]? = some b) :
    List.Forall₂ (IsVar cfg P ws)
      ((List.range (f.core.fn i).npar).map fun j => Entry.par f.core.id (f.core.parIndex.getD i 0 + j))
      (fsmdVars P cfg.model.comps.length f.core i b) := by
  obtain ⟨h1, h2, h3⟩ := fsmd_facts h hf
  unfold fsmdVars
  refine forall₂_zipIdx (h3 i b hb).symm fun j p hp => ?_
  have hpo := (parOf_fsmd h hf hb (List.getElem?_eq_some_iff.mp hp).1).trans hp
  have hl : cfg.model.comps.length = cfg.comps.length := by rw [(cfg_comps h).1, List.length_map]
  rw [h1, hl]
  refine ⟨(startOf_par _ _ _ _).symm, ?_, fun hfr => ?_⟩
  · rw [parVar_free, Bool.not_eq_true']
    constructor
    · intro a
      exact ⟨p, hpo, a, fun hlt => absurd hlt (lt_irrefl _)⟩
    · rintro ⟨p', hp', a, _⟩
      rw [hpo] at hp'
      cases hp'
      exact a
  · rw [limitsOf_par hpo]
    exact parVar_kind hfr

theorem flatMap_zipIdx {α β : Type} (l : List α) (f : α → List β) :
    l.flatMap f = l.zipIdx.flatMap fun x => f x.1 := by
  have : l = l.zipIdx.map (·.1) := by simp
  conv_lhs => rw [this]
  rw [List.flatMap_map]

theorem range_flatMap_zipIdx {α β : Type} (l : List α) (f : ℕ → List β) :
    (List.range l.length).flatMap f = l.zipIdx.flatMap fun x => f x.2 := by
  have : List.range l.length = l.zipIdx.map (·.2) := by
    rw [List.range_eq_range']; simp
  rw [this, List.flatMap_map]

theorem initVars_spec {S : Setup} {dat : List BinC → Input} {cfg : Config} (h : CfgOk S dat cfg) (P : Params)
    (step : Name) : List.Forall₂ (IsVar cfg P (words step)) (layout cfg.model) (initVars cfg P step) := by
  obtain ⟨rc, hrc⟩ := read_bridge h
  have hr := ResFit.readModel_ok hrc
  have hrange : ∀ {β : Type} (F : Component → List β), (List.range cfg.model.comps.length).flatMap
      (fun ic => F (cfg.model.comp ic)) = cfg.model.comps.flatMap F := by
    intro β F
    have : cfg.model.comps = (List.range cfg.model.comps.length).map cfg.model.comp := by
      have := ResFit.range_map_comp cfg.model (fun c => c)
      rw [List.map_id'] at this
      exact this.symm
    conv_rhs => rw [this]
    rw [List.flatMap_map]
  unfold initVars layout
  dsimp only
  refine forall₂_append (forall₂_append (forall₂_append ?_ ?_) ?_) ?_
  · rw [← hrange]
    refine forall₂_flatMap fun ic hic => ?_
    have hic := List.mem_range.mp hic
    unfold coupEntries
    refine forall₂_flatMap fun k _ => forall₂_flatMap fun b _ => ?_
    rw [(ResFit.comps_getD hr hic).1]
    exact coupVars_spec P _ hic
  · rw [← hrange]
    refine forall₂_flatMap fun ic hic => ?_
    have hic := List.mem_range.mp hic
    unfold brEntries
    refine forall₂_flatMap fun k _ => ?_
    rw [(ResFit.comps_getD hr hic).1]
    exact brVars_spec P _
  · rw [(cfg_comps h).1, List.flatMap_map, flatMap_zipIdx]
    refine forall₂_flatMap fun x hx => ?_
    have hx : cfg.comps[x.2]? = some x.1 := by
      have := List.mem_zipIdx_iff_getElem?.mp hx
      exact this
    exact compVars_spec h P _ hx
  · rw [(cfg_comps h).2]
    cases hf : cfg.fsmd with
    | none => exact .nil
    | some f =>
      dsimp only [Option.map_some]
      unfold fsmdEntries
      rw [← (fsmd_facts h hf).2.1, range_flatMap_zipIdx]
      refine forall₂_flatMap fun x hx => ?_
      exact fsmdVars_spec h P _ hf (List.mem_zipIdx_iff_getElem?.mp hx)

end Rpwa.ResMin
