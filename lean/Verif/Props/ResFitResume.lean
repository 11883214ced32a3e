import Verif.Props.ResFitMinimize
import Verif.Props.ResFitConfigEx

/-!
# C78: the quality of a fit, and the fit that continues an interrupted one
-/

namespace Rpwa.ResMin

open ResFit (Name Params St Component Channel Fsmd Model Input)
open ResFit.Spec (Entry layout entry startOf IsAnchor)
open ResCfg (Config Par Num Comp FsmdC FsmdBin Setup Codec V BinC CfgOk inputOf Store readConfig writeConfig
  load normBin Restored flatMap_congr')
open Spec (IsVar Released limitsOf parOf Within Respects Sound callsOf Current callFor Done lastMin)

/-! ### the quality -/

theorem minimize_inv {cfg : Config} {mz : Minimizer} {chi2 : (ℕ → ℝ) → ℝ} {points maxCalls : ℕ}
    {free : List Name} {st : St} {err : Params} {q : List (Name × Num)} {r : Run}
    (h : minimize cfg mz chi2 points maxCalls free st err = .ok (q, r)) :
    ∃ x, r.hist.getLast? = some x ∧ q = qualityOf chi2 points x.2 r := by
  unfold minimize at h
  dsimp only at h
  obtain ⟨r', _, h⟩ := (Pick.bind_ok_iff _ _ _).mp h
  cases hl : r'.hist.getLast? with
  | none => rw [hl] at h; cases h
  | some x => rw [hl] at h; cases h; exact ⟨x, hl, rfl⟩

/-- **C78.** No key occurs twice in the quality of a fit. -/
theorem quality_keys {cfg : Config} {mz : Minimizer} {chi2 : (ℕ → ℝ) → ℝ} {points maxCalls : ℕ}
    {free : List Name} {st : St} {err : Params} {q : List (Name × Num)} {r : Run}
    (h : minimize cfg mz chi2 points maxCalls free st err = .ok (q, r)) : (q.map (·.1)).Nodup := by
  obtain ⟨x, _, rfl⟩ := minimize_inv h
  unfold qualityOf
  dsimp only
  by_cases hb : r.budget = 0 <;> by_cases hh : (r.order.getLast? = some kHesse ∧ r.budget ≠ 0)
  · exact absurd hb hh.2
  all_goals
    first | rw [if_pos hb] | rw [if_neg hb]
    first | rw [if_pos hh, if_pos hh] | rw [if_neg hh, if_neg hh]
  · show List.Nodup ["chi2".toList, "continue".toList, "edm".toList, "minStatus".toList, "ndf".toList, "redchi2".toList]
    decide +kernel
  · show List.Nodup ["chi2".toList, "covMatrixStatus".toList, "edm".toList, "hesseStatus".toList, "minStatus".toList, "ndf".toList, "redchi2".toList]
    decide +kernel
  · show List.Nodup ["chi2".toList, "edm".toList, "minStatus".toList, "ndf".toList, "redchi2".toList]
    decide +kernel

/-- **C78.** The quality says that the fit has to be continued exactly if the function calls have been
used. -/
theorem quality_continue {S : Setup} {C : Codec} {dat : List BinC → Input} {root : V} {cfg : Config}
    (hcfg : readConfig S C dat root = .ok cfg) {mz : Minimizer} {chi2 : (ℕ → ℝ) → ℝ} {points maxCalls : ℕ}
    {free : List Name} {st : St} {err : Params} {q : List (Name × Num)} {r : Run}
    (h : minimize cfg mz chi2 points maxCalls free st err = .ok (q, r)) :
    q.lookup "continue".toList
      = if budgetOf maxCalls cfg.model.nrParameters ≤ callsOf r.hist then some (.fin 1) else none := by
  obtain ⟨_, hd⟩ := done_of hcfg h
  obtain ⟨x, _, rfl⟩ := minimize_inv h
  have hl := hd.left
  unfold qualityOf
  dsimp only
  by_cases hb : r.budget = 0
  · have hle : budgetOf maxCalls cfg.model.nrParameters ≤ callsOf r.hist := by omega
    have hh : ¬ (r.order.getLast? = some kHesse ∧ r.budget ≠ 0) := fun h => h.2 hb
    rw [if_pos hb, if_pos hle, if_neg hh, if_neg hh]
    rfl
  · have hle : ¬ budgetOf maxCalls cfg.model.nrParameters ≤ callsOf r.hist := by omega
    rw [if_neg hb, if_neg hle]
    by_cases hh : (r.order.getLast? = some kHesse ∧ r.budget ≠ 0)
    · rw [if_pos hh, if_pos hh]
      rfl
    · rw [if_neg hh, if_neg hh]
      rfl

theorem left_last {L : List Name} {k : ℕ} (hk : k < L.length) : (L.drop k).getLast? = L.getLast? := by
  rw [List.getLast?_drop, if_neg (by omega)]

/-- **C78.** The status of the Hessian matrix is reported exactly if the release order ends with it and the
function calls have not been used; the matrix then has been calculated, and the numbers are those of this
calculation. -/
theorem quality_hesse {S : Setup} {C : Codec} {dat : List BinC → Input} {root : V} {cfg : Config}
    (hcfg : readConfig S C dat root = .ok cfg) {mz : Minimizer} {chi2 : (ℕ → ℝ) → ℝ} {points maxCalls : ℕ}
    {free : List Name} {st : St} {err : Params} {q : List (Name × Num)} {r : Run}
    (h : minimize cfg mz chi2 points maxCalls free st err = .ok (q, r)) :
    if (orderOf free).getLast? = some "hesse".toList ∧ callsOf r.hist < budgetOf maxCalls cfg.model.nrParameters
    then ∃ n a, r.hist.getLast? = some (.hesse n, a) ∧
      q.lookup "hesseStatus".toList = some (.fin ((a.status.tdiv 100 : ℤ) : ℝ)) ∧
      q.lookup "covMatrixStatus".toList = some (.fin (a.covStatus : ℝ))
    else q.lookup "hesseStatus".toList = none ∧ q.lookup "covMatrixStatus".toList = none := by
  obtain ⟨k, hk, hro, _⟩ := order_left hcfg h
  obtain ⟨_, hd⟩ := done_of hcfg h
  obtain ⟨⟨c, a⟩, hx, rfl⟩ := minimize_inv h
  have hl := hd.left
  have hm := hd.most
  have hlast : r.order.getLast? = (orderOf free).getLast? := by
    rw [hro, left_last (by omega)]
  by_cases hh : (orderOf free).getLast? = some "hesse".toList ∧ callsOf r.hist < budgetOf maxCalls cfg.model.nrParameters
  · rw [if_pos hh]
    have hb : r.budget ≠ 0 := by omega
    have hlen := hd.all hb
    have hst := hd.started
    have hx' := hx
    rw [List.getLast?_eq_getElem?] at hx'
    obtain ⟨_, s, P, hs, _, hc⟩ := hd.steps _ c a hx'
    have hsk : s = kHesse := by
      have := hh.1
      rw [List.getLast?_eq_getElem?, ← hlen, hs] at this
      exact Option.some.inj this
    unfold callFor at hc
    rw [if_pos (show s = "hesse".toList from hsk)] at hc
    refine ⟨_, a, by rw [hx, hc], ?_⟩
    unfold qualityOf
    dsimp only
    rw [if_neg hb, if_pos ⟨by rw [hlast]; exact hh.1, hb⟩, if_pos ⟨by rw [hlast]; exact hh.1, hb⟩]
    exact ⟨rfl, rfl⟩
  · rw [if_neg hh]
    have hh' : ¬ (r.order.getLast? = some kHesse ∧ r.budget ≠ 0) := by
      rintro ⟨h1, h2⟩
      exact hh ⟨by rw [← hlast]; exact h1, by omega⟩
    unfold qualityOf
    dsimp only
    rw [if_neg hh', if_neg hh']
    by_cases hb : r.budget = 0
    · rw [if_pos hb]
      exact ⟨rfl, rfl⟩
    · rw [if_neg hb]
      exact ⟨rfl, rfl⟩

/-- **C78.** The number of degrees of freedom is the number of data points minus the number of released
variables of the last minimization; if there are more released variables than data points, 2^32 is
added. -/
theorem quality_ndf {cfg : Config} {mz : Minimizer} {chi2 : (ℕ → ℝ) → ℝ} {points maxCalls : ℕ}
    {free : List Name} {st : St} {err : Params} {q : List (Name × Num)} {r : Run}
    (h : minimize cfg mz chi2 points maxCalls free st err = .ok (q, r)) (hp : points < 2 ^ 32)
    (hf : (lastVars r.hist).length < 2 ^ 32) :
    q.lookup "ndf".toList = some (.fin ((points : ℝ) - ((lastVars r.hist).countP (·.isFree) : ℝ)
      + if points < (lastVars r.hist).countP (·.isFree) then 2 ^ 32 else 0)) := by
  obtain ⟨x, _, rfl⟩ := minimize_inv h
  have hc : (lastVars r.hist).countP (·.isFree) < 2 ^ 32 := lt_of_le_of_lt List.countP_le_length hf
  have hn : ∀ f, f < 2 ^ 32 → ((ndf points f : ℕ) : ℝ)
      = (points : ℝ) - (f : ℝ) + if points < f then 2 ^ 32 else 0 := by
    intro f hf
    unfold ndf
    rw [Nat.mod_eq_of_lt hp, Nat.mod_eq_of_lt hf]
    by_cases hlt : points < f
    · rw [if_pos hlt, Nat.mod_eq_of_lt (by omega), Nat.cast_sub (by omega), Nat.cast_add, Nat.cast_pow]
      push_cast
      ring
    · rw [if_neg hlt, show points + 2 ^ 32 - f = (points - f) + 2 ^ 32 by omega, Nat.add_mod_right,
        Nat.mod_eq_of_lt (by omega), Nat.cast_sub (by omega), add_zero]
  rw [← hn _ hc]
  have hlk : ∀ n : ℕ, (some (ofInt (n : ℤ)) : Option Num) = some (.fin ((n : ℕ) : ℝ)) := fun n => by
    unfold ofInt
    rw [Int.cast_natCast]
  rw [← hlk]
  unfold qualityOf
  dsimp only
  by_cases hb : r.budget = 0 <;> by_cases hh : (r.order.getLast? = some kHesse ∧ r.budget ≠ 0)
  · exact absurd hb hh.2
  all_goals
    first | rw [if_pos hb] | rw [if_neg hb]
    first | rw [if_pos hh, if_pos hh] | rw [if_neg hh, if_neg hh]
    rfl

/-! ### the next fit -/

theorem zipIdx_map_zipIdx {α β γ : Type} (l : List α) (g : α → ℕ → β) (f : β × ℕ → γ) (n : ℕ) :
    (((l.zipIdx n).map fun x => g x.1 x.2).zipIdx n).map f = (l.zipIdx n).map fun x => f (g x.1 x.2, x.2) := by
  induction l generalizing n with
  | nil => rfl
  | cons a l ih =>
    rw [List.zipIdx_cons, List.map_cons, List.zipIdx_cons, List.map_cons, List.map_cons, ih]

theorem zipIdx_flatMap_zipIdx {α β γ : Type} (l : List α) (g : α → ℕ → β) (f : β × ℕ → List γ) (n : ℕ) :
    (((l.zipIdx n).map fun x => g x.1 x.2).zipIdx n).flatMap f
      = (l.zipIdx n).flatMap fun x => f (g x.1 x.2, x.2) := by
  induction l generalizing n with
  | nil => rfl
  | cons a l ih =>
    rw [List.zipIdx_cons, List.map_cons, List.zipIdx_cons, List.flatMap_cons, List.flatMap_cons, ih]

theorem map_flatMap_zipIdx {α β γ : Type} (l : List α) (g : α → β) (f : β × ℕ → List γ) (n : ℕ) :
    ((l.map g).zipIdx n).flatMap f = (l.zipIdx n).flatMap fun x => f (g x.1, x.2) := by
  induction l generalizing n with
  | nil => rfl
  | cons a l ih =>
    rw [List.map_cons, List.zipIdx_cons, List.zipIdx_cons, List.flatMap_cons, List.flatMap_cons, ih]

/-- The variables of a configuration that was written and read again are those of the old one with the
values that were written. -/
theorem initVars_restored {S : Setup} {dat : List BinC → Input} {cfg : Config} (hcfg : CfgOk S dat cfg)
    {s : Store} {quality : List (Name × Num)} {free : List Name} {cfg' : Config}
    (h : Restored cfg s quality free cfg') (step : Name) :
    initVars cfg' cfg'.store.P step = initVars cfg s.P step := by
  have hcomp : ∀ ic ∈ List.range cfg.model.comps.length, ∃ c, cfg.comps[ic]? = some c ∧
      cfg.model.comp ic = c.core := by
    intro ic hic
    rw [(cfg_comps hcfg).1, List.length_map, List.mem_range] at hic
    have hc : cfg.comps[ic]? = some cfg.comps[ic] := List.getElem?_eq_getElem hic
    exact ⟨_, hc, (cfg_comp hcfg hc).1⟩
  unfold initVars
  dsimp only
  rw [h.model]
  congr 1
  · congr 1
    · congr 1
      · refine flatMap_congr' fun ic hic => ?_
        obtain ⟨c, hci, e⟩ := hcomp ic hic
        rw [e]
        refine flatMap_congr' fun k hk => flatMap_congr' fun b hb => ?_
        unfold coupVars
        dsimp only
        rw [h.couplings ic c hci k (List.mem_range.mp hk) b hb]
      · refine flatMap_congr' fun ic hic => ?_
        obtain ⟨c, hci, e⟩ := hcomp ic hic
        rw [e]
        refine flatMap_congr' fun k hk => ?_
        have hk := List.mem_range.mp hk
        unfold brVars
        dsimp only
        rw [e]
        by_cases hfix : c.core.maps.brFixed.getD k false = true
        · rw [if_pos hfix, if_pos hfix]
        · have hm := (hcfg.comps ic c hci).mapsG
          rw [if_neg hfix, if_neg hfix]
          have h1 : 1 < c.core.maps.nrBr := by
            rcases hm.br with h | h
            · exact h.1
            · exact absurd (by rw [show k = 0 by omega]; exact h.2.2) hfix
          obtain ⟨a1, a2⟩ := hm.all h1
          have hb := h.branchings ic c hci k (by omega)
          rw [a2 k (by omega), if_neg hfix] at hb
          rw [hb]
    · rw [h.comps, map_flatMap_zipIdx]
      refine flatMap_congr' fun x hx => ?_
      have hci : cfg.comps[x.2]? = some x.1 := by
        have := List.mem_zipIdx_iff_getElem?.mp hx
        exact this
      unfold compVars
      dsimp only
      refine (zipIdx_map_zipIdx _ (fun (p : Par) k =>
        ({ p with start := s.P.par x.1.core.id k, error := s.E x.1.core.id k } : Par)) _ 0).trans ?_
      refine List.map_congr_left fun y hy => ?_
      have hy' : x.1.pars[y.2]? = some y.1 := List.mem_zipIdx_iff_getElem?.mp hy
      rw [(h.pars x.2 x.1 hci y.2 (List.getElem?_eq_some_iff.mp hy').1).1]
      rfl
  · rw [h.fsmd]
    cases hfs : cfg.fsmd with
    | none => rfl
    | some f =>
      dsimp only [Option.map_some]
      have hid := (fsmd_facts hcfg hfs).1
      have hid' : cfg.model.comps.length = f.core.id := by
        rw [(cfg_comps hcfg).1, List.length_map, hid]
      rw [hid']
      refine (zipIdx_flatMap_zipIdx _ (fun (b : FsmdBin) i => ({ b with
        pars := b.pars.zipIdx.map fun y =>
          { y.1 with start := s.P.par f.core.id (f.core.parIndex.getD i 0 + y.2)
                     error := s.E f.core.id (f.core.parIndex.getD i 0 + y.2) } } : FsmdBin)) _ 0).trans ?_
      refine flatMap_congr' fun x hx => ?_
      have hbi : f.bins[x.2]? = some x.1 := List.mem_zipIdx_iff_getElem?.mp hx
      unfold fsmdVars
      dsimp only
      refine (zipIdx_map_zipIdx _ (fun (p : Par) k =>
        ({ p with start := s.P.par f.core.id (f.core.parIndex.getD x.2 0 + k)
                  error := s.E f.core.id (f.core.parIndex.getD x.2 0 + k) } : Par)) _ 0).trans ?_
      refine List.map_congr_left fun y hy => ?_
      have hy' : x.1.pars[y.2]? = some y.1 := List.mem_zipIdx_iff_getElem?.mp hy
      rw [(h.fsmdPars f hfs x.2 x.1 hbi y.2 (List.getElem?_eq_some_iff.mp hy').1).1]
      rfl

/-- **C78.** The result of a fit is written such that it can be read, and what is read is the
configuration of the fit with the values and errors of the last step, the quality of the fit, and the part
of the release order that begins with the last minimization; this is again the configuration of a fit, and
the variables of all its steps start where the fit stopped. -/
theorem resume {S : Setup} {C : Codec} (hC : C.Faithful) {dat : List BinC → Input} {root : V} {cfg : Config}
    (hcfg : readConfig S C dat root = .ok cfg) (hdat : dat (cfg.bins.map normBin) = dat cfg.bins) {f : FsmdC}
    (hf : cfg.fsmd = some f)
    (hn : ∀ b ∈ f.bins, (S.formula b.text).1.Nodup ∧ "formula".toList ∉ (S.formula b.text).1)
    {mz : Minimizer} {chi2 : (ℕ → ℝ) → ℝ} {points maxCalls : ℕ}
    {free : List Name} {st : St} {err : Params} {q : List (Name × Num)} {r : Run}
    (h : minimize cfg mz chi2 points maxCalls free st err = .ok (q, r)) :
    ∃ doc v env cfg', writeConfig C cfg r.store q r.order = .ok doc ∧ load [] doc = some (v, env) ∧
      readConfig S C dat v = .ok cfg' ∧ Restored cfg r.store q r.order cfg' ∧
      (∀ step, initVars cfg' cfg'.store.P step = initVars cfg r.fit.P step) ∧
      ∀ (mz' : Minimizer) (maxCalls' : ℕ) (K : ResFit.Cache) (err' : Params), ∃ q' r',
        minimize cfg' mz' chi2 points maxCalls' cfg'.free ⟨cfg'.store.P, K⟩ err' = .ok (q', r') ∧
        Done cfg' mz' r.order cfg'.store.P (budgetOf maxCalls' cfg.model.nrParameters) r' := by
  have hE : ∀ i k, r.store.E i k = .inf → C.parseN (C.fmtN .inf) = some .inf := by
    intro i k e
    unfold Run.store at e
    cases e
  have hq := quality_keys h
  obtain ⟨doc, v, env, cfg', h1, h2, h3, h4⟩ := ResCfg.round_trip hC hcfg hdat hf hn r.store hE hq r.order
  have hv : ∀ step, initVars cfg' cfg'.store.P step = initVars cfg r.fit.P step := by
    intro step
    rw [initVars_restored (ResCfg.readConfig_ok hcfg) h4]
    rfl
  clear hE hq
  refine ⟨doc, v, env, cfg', h1, h2, h3, h4, hv, ?_⟩
  intro mz' maxCalls' K err'
  obtain ⟨k, hk, hro, hne, hh, _⟩ := order_left hcfg h
  obtain ⟨q', r', e, hd⟩ := (fit_done h3 mz' chi2 points maxCalls' cfg'.free ⟨cfg'.store.P, K⟩ err').1
    (by rw [h4.free]; exact hh)
  refine ⟨q', r', e, ?_⟩
  have ho : orderOf cfg'.free = r.order := by
    rw [h4.free]
    unfold orderOf
    rw [if_neg]
    intro e
    exact hne (List.eq_nil_of_length_eq_zero e)
  rw [ho, h4.model] at hd
  exact hd

/-! ### example -/

/-- a minimizer that increases every variable without limits by 1, with one function call -/
noncomputable def exMz : Minimizer := fun h call =>
  { X := fun j => match ((call.vars?).getD (lastVars h))[j]? with
      | none => 0
      | some v => match v.kind with
        | .free _ none none => v.start + 1
        | _ => v.start
    errors := fun _ => 0.1
    cov := fun _ _ => 0
    calls := 1
    status := 0
    covStatus := 3
    edm := 0.001 }

theorem exMz_sound : Sound exMz := by
  intro h call
  refine ⟨fun i v hv hf => ?_, fun i v s lo up hv hf hw => ?_⟩
  · unfold exMz
    dsimp only
    rw [hv]
    dsimp only
    rw [hf]
  · unfold exMz
    dsimp only
    rw [hv]
    dsimp only
    rw [hf]
    cases lo with
    | some l => exact hw
    | none =>
      cases up with
      | some u => exact hw
      | none => exact ⟨fun l hl => (by cases hl), fun u hu => (by cases hu)⟩

/-- the release order of the example -/
def exOrder : List Name := ["coupling".toList, "mass".toList, "hesse".toList, "*".toList]

/-- start values of the example: the mass is 1.3 -/
noncomputable def exStart : Store where
  P := { par := fun _ k => if k = 0 then 1.3 else 0.1, coup := fun _ k b => ⟨k, b⟩, br := fun _ _ => 1 }
  E _ _ := .fin 0.25

/-- a fit with four steps that is interrupted after the third one: the next one begins with the second
step; the width, which is fixed, is as before, the mass, which is released and has limits, is within them -/
theorem ex_fit : ∃ root cfg q r, readConfig ResCfg.exSetup ResCfg.exCodec ResCfg.exDat root = .ok cfg ∧
    cfg.store.P.par 0 0 = 1.3 ∧
    minimize cfg exMz (fun X => X 0 ^ 2) 10 3 exOrder ⟨cfg.store.P, ResFit.Cache.empty⟩ Params.empty = .ok (q, r) ∧
    r.hist.length = 3 ∧ r.order = ["mass".toList, "hesse".toList, "*".toList] ∧
    q.lookup "continue".toList = some (.fin 1) ∧ q.lookup "hesseStatus".toList = none ∧
    r.fit.P.par 0 1 = 0.1 ∧ 1 ≤ r.fit.P.par 0 0 ∧ r.fit.P.par 0 0 ≤ 2 := by
  have hn : ∀ b ∈ ResCfg.exFsmd.bins, ResCfg.NamesOk ResCfg.exSetup b.text := by
    intro b hb
    rw [show ResCfg.exFsmd.bins = [_] from rfl, List.mem_singleton] at hb
    subst hb
    unfold ResCfg.NamesOk
    rw [ResCfg.exFormula]
    show List.Nodup ["a".toList, "b".toList] ∧ ResCfg.kFormula ∉ ["a".toList, "b".toList]
    decide +kernel
  have hE : ∀ i k, ResCfg.ErrOk ResCfg.exCodec (exStart.E i k) := by
    intro i k h
    cases h
  obtain ⟨_, root, _, cfg, _, _, hr, hres⟩ := ResCfg.written_ok ResCfg.exCodec_faithful ResCfg.exCfg_ok rfl
    (f := ResCfg.exFsmd) rfl hn exStart hE (quality := []) List.nodup_nil []
  have hP : ∀ k < 2, cfg.store.P.par 0 k = if k = 0 then 1.3 else 0.1 := fun k hk =>
    (hres.pars 0 ResCfg.exComp rfl k hk).1
  have hlay : ∀ k < 2, Entry.par 0 k ∈ layout cfg.model := by
    intro k hk
    rw [hres.model]
    unfold layout
    refine List.mem_append_left _ (List.mem_append_right _ (List.mem_flatMap.mpr
      ⟨ResCfg.exComp.core, List.mem_singleton.mpr rfl, List.mem_map.mpr ⟨k, List.mem_range.mpr hk, rfl⟩⟩))
  have hpar : ∀ k p, ResCfg.exComp.pars[k]? = some p → ∃ p', parOf cfg 0 k = some p' ∧ p'.fixed = p.fixed ∧
      p'.lower = p.lower ∧ p'.upper = p.upper := by
    intro k p hp
    unfold parOf
    rw [hres.comps, List.getElem?_map, show ResCfg.exCfg.comps[0]? = some ResCfg.exComp from rfl]
    dsimp only [Option.map_some]
    rw [List.getElem?_map, List.getElem?_zipIdx, hp]
    exact ⟨_, rfl, rfl, rfl, rfl⟩
  obtain ⟨q, r, h, hd⟩ := (fit_done hr exMz (fun X => X 0 ^ 2) 10 3 exOrder
    ⟨cfg.store.P, ResFit.Cache.empty⟩ Params.empty).1 (by decide +kernel)
  have ho : orderOf exOrder = exOrder := rfl
  have hbud : budgetOf 3 cfg.model.nrParameters = 3 := rfl
  have hsum : ∀ l : List (Call × Res), (∀ x ∈ l, x.2.calls = 1) → callsOf l = l.length := by
    intro l hl
    unfold callsOf
    rw [List.map_congr_left hl, List.map_const', List.sum_replicate, smul_eq_mul, mul_one]
  have hone : ∀ x ∈ r.hist, x.2.calls = 1 := by
    rintro ⟨c, a⟩ hx
    obtain ⟨i, hi, e⟩ := List.getElem_of_mem hx
    rw [(hd.steps i c a (List.getElem?_eq_some_iff.mpr ⟨hi, e⟩)).1]
    rfl
  have hcalls := hsum _ hone
  rw [ho, hbud] at hd
  have hlen : r.hist.length = 3 := by
    have h1 := hd.most
    have h2 := hd.left
    have h3 := hd.all
    have h4 := hd.limit
    rw [show exOrder.length = 4 from rfl] at h1 h3
    rcases Nat.lt_or_ge r.hist.length 3 with hlt | hge
    · have := h3 (by omega)
      omega
    · rcases Nat.lt_or_ge 3 r.hist.length with hgt | _
      · have := h4 3 (by omega) hgt
        rw [hsum _ fun x hx => hone x (List.mem_of_mem_take hx), List.length_take] at this
        omega
      · omega
  refine ⟨root, cfg, q, r, hr, hP 0 (by omega), h, hlen, ?_, ?_, ?_, ?_, ?_⟩
  · rw [hd.rest, hlen]
    decide +kernel
  · rw [quality_continue hr h, if_pos]
    rw [hbud, hcalls, hlen]
  · have hq := quality_hesse hr h
    rw [if_neg] at hq
    · exact hq.1
    · rintro ⟨h1, _⟩
      exact absurd h1 (by decide +kernel)
  · obtain ⟨p, h1, h2, _⟩ := hpar 1 _ rfl
    rw [fixed_kept hr exMz_sound h (hlay 1 (by omega)) h1 (h2.trans rfl)]
    exact (hP 1 (by omega)).trans (if_neg one_ne_zero)
  · obtain ⟨p, h1, _, h3, h4⟩ := hpar 0 _ rfl
    have hw := limits_kept hr exMz_sound h (hlay 0 (by omega)) h1 (by
      rw [h3, h4]
      show Within (some 1) (some 2) (cfg.store.P.par 0 0)
      rw [hP 0 (by omega), if_pos rfl]
      refine ⟨fun l hl => ?_, fun u hu => ?_⟩
      · cases hl; norm_num
      · cases hu; norm_num)
    rw [h3, h4] at hw
    exact ⟨hw.1 1 rfl, hw.2 2 rfl⟩

end Rpwa.ResMin
