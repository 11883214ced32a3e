import Verif.Lemmas.ResFitConfigTop

/-!
# Lemmas: what holds of every configuration of a resonance-model fit that has been read
-/

namespace Rpwa.ResCfg

open ResFit (Name Params Input Channel Maps Component Shape ShapeCfg Formula Fsmd Model)
open Pick (bind_ok_iff)

theorem mand_inv {α : Type} {v : V} {k : Name} {f : V → Outcome α} {x : α} (h : mand v k f = .ok x) :
    ∃ w, f w = .ok x := by
  unfold mand at h
  split at h
  · exact ⟨_, h⟩
  · cases h
  · cases h
  · cases h

theorem opt_inv {α : Type} {v : V} {k : Name} {d : α} {f : V → Outcome α} {x : α}
    (h : opt v k d f = .ok x) : x = d ∨ ∃ w, f w = .ok x := by
  unfold opt at h
  split at h
  · exact Or.inr ⟨_, h⟩
  · cases h; exact Or.inl rfl
  · cases h
  · cases h

theorem mapM_mem {α β : Type} {f : α → Outcome β} : ∀ {l : List α} {r : List β}, l.mapM f = .ok r →
    ∀ y ∈ r, ∃ x ∈ l, f x = .ok y
  | [], r, h, y, hy => by cases h; cases hy
  | a :: l, r, h, y, hy => by
    rw [List.mapM_cons] at h
    obtain ⟨b, hb, h⟩ := (bind_ok_iff _ _ _).mp h
    obtain ⟨bs, hbs, h⟩ := (bind_ok_iff _ _ _).mp h
    cases h
    rcases List.mem_cons.mp hy with rfl | hy
    · exact ⟨a, List.mem_cons_self, hb⟩
    · obtain ⟨x, hx, e⟩ := mapM_mem hbs y hy
      exact ⟨x, List.mem_cons_of_mem _ hx, e⟩

theorem mapM_map_eq {α β γ : Type} {f : α → Outcome β} (g : β → γ) (g' : α → γ)
    (hg : ∀ a b, f a = .ok b → g b = g' a) : ∀ {l : List α} {r : List β}, l.mapM f = .ok r →
    r.map g = l.map g'
  | [], r, h => by cases h; rfl
  | a :: l, r, h => by
    rw [List.mapM_cons] at h
    obtain ⟨b, hb, h⟩ := (bind_ok_iff _ _ _).mp h
    obtain ⟨bs, hbs, h⟩ := (bind_ok_iff _ _ _).mp h
    cases h
    rw [List.map_cons, List.map_cons, hg a b hb, mapM_map_eq g g' hg hbs]

/-! ### waves -/

theorem readWaves_nodup {C : Codec} : ∀ (l : List V) (acc ws : List WaveC), (acc.map (·.name)).Nodup →
    l.foldlM (readWave C) acc = Outcome.ok ws → (ws.map (·.name)).Nodup
  | [], acc, ws, h, e => by cases e; exact h
  | v :: l, acc, ws, h, e => by
    rw [List.foldlM_cons] at e
    obtain ⟨acc', h1, h2⟩ := (bind_ok_iff _ _ _).mp e
    refine readWaves_nodup l acc' ws ?_ h2
    unfold readWave at h1
    obtain ⟨name, _, h1⟩ := (bind_ok_iff _ _ _).mp h1
    split at h1
    · cases h1
    rename_i hx
    obtain ⟨lo, _, h1⟩ := (bind_ok_iff _ _ _).mp h1
    obtain ⟨up, _, h1⟩ := (bind_ok_iff _ _ _).mp h1
    cases h1
    rw [List.map_append, List.nodup_append]
    refine ⟨h, List.nodup_singleton _, fun a ha b hb hab => ?_⟩
    obtain ⟨w, hw, rfl⟩ := List.mem_map.mp ha
    rw [List.map_singleton, List.mem_singleton] at hb
    subst hb
    exact hx (List.any_eq_true.mpr ⟨w, hw, decide_eq_true hab⟩)

theorem readInput_nodup {C : Codec} {root : V} {bins : List BinC} (h : readInput C root = .ok bins) :
    ∀ b ∈ bins, (b.waves.map (·.name)).Nodup := by
  unfold readInput at h
  obtain ⟨w, h⟩ := mand_inv h
  obtain ⟨l, _, h⟩ := (bind_ok_iff _ _ _).mp h
  intro b hb
  obtain ⟨v, _, hv⟩ := mapM_mem h b hb
  unfold readBin at hv
  obtain ⟨_, _, hv⟩ := (bind_ok_iff _ _ _).mp hv
  obtain ⟨_, _, hv⟩ := (bind_ok_iff _ _ _).mp hv
  obtain ⟨ws, _, hv⟩ := (bind_ok_iff _ _ _).mp hv
  obtain ⟨waves, hw, hv⟩ := (bind_ok_iff _ _ _).mp hv
  obtain ⟨_, _, hv⟩ := (bind_ok_iff _ _ _).mp hv
  obtain ⟨_, _, hv⟩ := (bind_ok_iff _ _ _).mp hv
  cases hv
  exact readWaves_nodup ws [] waves List.nodup_nil hw

/-! ### components -/

theorem readPar_name {C : Codec} {v : V} {n : Name} {st : ℝ} {p : Par} (h : readPar C v n st = .ok p) :
    p.name = n := by
  unfold readPar at h
  obtain ⟨w, h⟩ := mand_inv h
  obtain ⟨_, _, h⟩ := (bind_ok_iff _ _ _).mp h
  obtain ⟨_, _, h⟩ := (bind_ok_iff _ _ _).mp h
  obtain ⟨_, _, h⟩ := (bind_ok_iff _ _ _).mp h
  obtain ⟨_, _, h⟩ := (bind_ok_iff _ _ _).mp h
  obtain ⟨_, _, h⟩ := (bind_ok_iff _ _ _).mp h
  obtain ⟨_, _, h⟩ := (bind_ok_iff _ _ _).mp h
  cases h
  rfl

theorem readPoints_chain {C : Codec} : ∀ (l : List V) (acc pts : List (ℝ × ℝ)),
    acc.IsChain (fun a b => a.1 ≤ b.1) → l.foldlM (readPoint C) acc = Outcome.ok pts →
    pts.IsChain (fun a b => a.1 ≤ b.1) ∧ pts.length = acc.length + l.length
  | [], acc, pts, h, e => by cases e; exact ⟨h, rfl⟩
  | v :: l, acc, pts, h, e => by
    rw [List.foldlM_cons] at e
    obtain ⟨acc', h1, h2⟩ := (bind_ok_iff _ _ _).mp e
    unfold readPoint at h1
    obtain ⟨p, _, h1⟩ := (bind_ok_iff _ _ _).mp h1
    have hacc : acc' = acc ++ [p] ∧ acc'.IsChain (fun a b => a.1 ≤ b.1) := by
      cases hl : acc.getLast? with
      | none =>
        rw [hl] at h1
        cases h1
        rw [List.getLast?_eq_none_iff] at hl
        subst hl
        exact ⟨rfl, List.isChain_singleton _⟩
      | some q =>
        rw [hl] at h1
        dsimp only at h1
        split at h1
        · cases h1
        rename_i hq
        cases h1
        refine ⟨rfl, ?_⟩
        rw [List.isChain_append]
        refine ⟨h, List.isChain_singleton _, fun x hx y hy => ?_⟩
        rw [hl] at hx
        cases hx
        cases hy
        exact not_lt.mp hq
    have ih := readPoints_chain l acc' pts hacc.2 h2
    refine ⟨ih.1, ?_⟩
    rw [ih.2, hacc.1, List.length_append, List.length_singleton, List.length_cons]
    omega

theorem readIntegral_ok {C : Codec} {v : V} {pts : List (ℝ × ℝ)} (h : readIntegral C v = .ok pts) :
    PtsOk pts := by
  unfold readIntegral at h
  obtain ⟨l, _, h⟩ := (bind_ok_iff _ _ _).mp h
  split at h
  · cases h
  rename_i hl
  obtain ⟨h1, h2⟩ := readPoints_chain l [] pts List.isChain_nil h
  exact ⟨by rw [h2, List.length_nil]; omega, h1⟩

theorem readIntCh_ok {C : Codec} {v : V} {x : ℝ × List (ℝ × ℝ)} (h : readIntCh C v = .ok x) :
    PtsOk x.2 := by
  unfold readIntCh at h
  obtain ⟨_, _, h⟩ := (bind_ok_iff _ _ _).mp h
  obtain ⟨pts, hp, h⟩ := (bind_ok_iff _ _ _).mp h
  cases h
  exact readIntegral_ok hp

theorem readConsts_ok {C : Codec} {tMeans : List ℝ} {v : V} {chans : List V} {k : Kind} {raw : Consts}
    (h : readConsts C tMeans v chans k = .ok raw) : raw.kind = k ∧ raw.Ok tMeans := by
  cases k with
  | fixedWidth => cases h; exact ⟨rfl, trivial⟩
  | constant => cases h; exact ⟨rfl, trivial⟩
  | dynamicWidth =>
    obtain ⟨a, _, h⟩ := (bind_ok_iff _ _ _).mp h
    obtain ⟨ex, _, h⟩ := (bind_ok_iff _ _ _).mp h
    obtain ⟨b, _, h⟩ := (bind_ok_iff _ _ _).mp h
    cases h
    exact ⟨rfl, trivial⟩
  | integralWidth =>
    obtain ⟨a, ha, h⟩ := (bind_ok_iff _ _ _).mp h
    obtain ⟨ex, _, h⟩ := (bind_ok_iff _ _ _).mp h
    obtain ⟨b, hb, h⟩ := (bind_ok_iff _ _ _).mp h
    cases h
    refine ⟨rfl, fun x hx => ?_⟩
    rcases List.mem_append.mp hx with hx | hx
    · obtain ⟨w, _, hw⟩ := mapM_mem ha x hx
      exact readIntCh_ok hw
    · obtain ⟨w, _, hw⟩ := mapM_mem hb x hx
      exact readIntCh_ok hw
  | exponential =>
    obtain ⟨_, _, h⟩ := (bind_ok_iff _ _ _).mp h
    obtain ⟨_, _, h⟩ := (bind_ok_iff _ _ _).mp h
    obtain ⟨_, _, h⟩ := (bind_ok_iff _ _ _).mp h
    obtain ⟨_, _, h⟩ := (bind_ok_iff _ _ _).mp h
    cases h
    exact ⟨rfl, trivial⟩
  | tPrime =>
    obtain ⟨_, _, h⟩ := (bind_ok_iff _ _ _).mp h
    obtain ⟨_, _, h⟩ := (bind_ok_iff _ _ _).mp h
    obtain ⟨_, _, h⟩ := (bind_ok_iff _ _ _).mp h
    obtain ⟨_, _, h⟩ := (bind_ok_iff _ _ _).mp h
    cases h
    exact ⟨rfl, rfl⟩
  | exponentialIntegral =>
    obtain ⟨pts, hp, h⟩ := (bind_ok_iff _ _ _).mp h
    obtain ⟨_, _, h⟩ := (bind_ok_iff _ _ _).mp h
    cases h
    exact ⟨rfl, readIntegral_ok hp⟩
  | tPrimeIntegral =>
    obtain ⟨pts, hp, h⟩ := (bind_ok_iff _ _ _).mp h
    obtain ⟨_, _, h⟩ := (bind_ok_iff _ _ _).mp h
    cases h
    exact ⟨rfl, rfl, readIntegral_ok hp⟩

theorem normed_ok {raw c : Consts} {tMeans : List ℝ} (h : raw.normed = .ok c) (hr : raw.Ok tMeans) :
    c.kind = raw.kind ∧ c.Ok tMeans := by
  cases raw with
  | dynamicWidth l =>
    obtain ⟨r, _, h⟩ := (bind_ok_iff _ _ _).mp h
    cases h
    exact ⟨rfl, trivial⟩
  | integralWidth l =>
    obtain ⟨r, _, h⟩ := (bind_ok_iff _ _ _).mp h
    cases h
    refine ⟨rfl, fun x hx => ?_⟩
    obtain ⟨y, hy, rfl⟩ := List.mem_map.mp hx
    exact hr y.2 (List.of_mem_zip hy).2
  | fixedWidth => cases h; exact ⟨rfl, hr⟩
  | constant => cases h; exact ⟨rfl, hr⟩
  | exponential => cases h; exact ⟨rfl, hr⟩
  | tPrime => cases h; exact ⟨rfl, hr⟩
  | exponentialIntegral => cases h; exact ⟨rfl, hr⟩
  | tPrimeIntegral => cases h; exact ⟨rfl, hr⟩

/-- constants for at least `n` channels -/
def Consts.Enough (n : ℕ) : Consts → Prop
  | .dynamicWidth l => n ≤ l.length
  | .integralWidth l => n ≤ l.length
  | _ => True

/-- number of channels with constants, and number of parameters -/
theorem build_total {c : Consts} {interp : List (ℝ × ℝ) → ℝ → ℝ} {I : Input} {chs : List Channel} {sh : Shape}
    (h : (c.cfg interp).build I chs = .ok sh) :
    c.Enough chs.length ∧ sh.nrParams = c.kind.defaults.length := by
  cases c with
  | dynamicWidth l =>
    unfold Consts.cfg ShapeCfg.build at h
    dsimp only at h
    split at h
    · cases h
    rename_i hl
    split at h
    · cases h
    obtain ⟨r, _, h⟩ := (bind_ok_iff _ _ _).mp h
    cases h
    refine ⟨?_, rfl⟩
    rw [List.length_map] at hl
    exact Nat.le_of_not_lt hl
  | integralWidth l =>
    unfold Consts.cfg ShapeCfg.build at h
    dsimp only at h
    split at h
    · cases h
    rename_i hl
    split at h
    · cases h
    obtain ⟨r, _, h⟩ := (bind_ok_iff _ _ _).mp h
    cases h
    refine ⟨?_, rfl⟩
    rw [List.length_map] at hl
    exact Nat.le_of_not_lt hl
  | fixedWidth => cases h; exact ⟨trivial, rfl⟩
  | constant =>
    obtain ⟨_, _, h⟩ := (bind_ok_iff _ _ _).mp h
    cases h; exact ⟨trivial, rfl⟩
  | exponential =>
    obtain ⟨_, _, h⟩ := (bind_ok_iff _ _ _).mp h
    obtain ⟨_, _, h⟩ := (bind_ok_iff _ _ _).mp h
    cases h; exact ⟨trivial, rfl⟩
  | tPrime =>
    obtain ⟨_, _, h⟩ := (bind_ok_iff _ _ _).mp h
    split at h
    · cases h
    obtain ⟨_, _, h⟩ := (bind_ok_iff _ _ _).mp h
    cases h; exact ⟨trivial, rfl⟩
  | exponentialIntegral =>
    obtain ⟨_, _, h⟩ := (bind_ok_iff _ _ _).mp h
    obtain ⟨_, _, h⟩ := (bind_ok_iff _ _ _).mp h
    cases h; exact ⟨trivial, rfl⟩
  | tPrimeIntegral =>
    obtain ⟨_, _, h⟩ := (bind_ok_iff _ _ _).mp h
    split at h
    · cases h
    obtain ⟨_, _, h⟩ := (bind_ok_iff _ _ _).mp h
    cases h; exact ⟨trivial, rfl⟩

theorem CompOk.nrParams {S : Setup} {I : Input} {tMeans : List ℝ} {id : ℕ} {c : Comp}
    (h : CompOk S I tMeans id c) : c.core.shape.nrParams = c.pars.length := by
  obtain ⟨_, _, _, _, _, _, h7, _⟩ := build_id h.built
  have := congrArg List.length h.names
  rw [List.length_map, List.length_map] at this
  rw [(build_total h7).2, this]

theorem readComp_ok {S : Setup} {C : Codec} {I : Input} {tMeans : List ℝ} {id : ℕ} {v : V} {c : Comp}
    (h : readComp S C I tMeans id v = .ok c) : CompOk S I tMeans id c := by
  unfold readComp at h
  obtain ⟨kind, _, h⟩ := (bind_ok_iff _ _ _).mp h
  obtain ⟨name, _, h⟩ := (bind_ok_iff _ _ _).mp h
  obtain ⟨pars, hp, h⟩ := (bind_ok_iff _ _ _).mp h
  obtain ⟨chans, _, h⟩ := (bind_ok_iff _ _ _).mp h
  obtain ⟨waves, _, h⟩ := (bind_ok_iff _ _ _).mp h
  obtain ⟨raw, hraw, h⟩ := (bind_ok_iff _ _ _).mp h
  obtain ⟨hk, hok⟩ := readConsts_ok hraw
  obtain ⟨h1, h2, h3, h4, h5, h6, h7, h8⟩ := build_id h
  obtain ⟨n1, n2⟩ := normed_ok h4 hok
  have hag := build_again h (ResFit.readChannels_names h5).symm c.pars
  have hb := (build_id hag).2.2.2.2.2.2.1
  refine ⟨hag, ?_, n2, ?_⟩
  · rw [h3, n1, hk]
    exact mapM_map_eq (·.name) (·.1) (fun a b hab => readPar_name hab) hp
  · have := (build_total hb).1
    unfold Comp.total
    cases hc : c.consts <;> rw [hc] at this <;> first | exact this | exact Nat.le_refl _

theorem readComp'_ok {S : Setup} {C : Codec} {I : Input} {tMeans : List ℝ} {id : ℕ} {v : V} {s : Store}
    {r : Comp × Store} (h : readComp' S C I tMeans id v s = .ok r) : CompOk S I tMeans id r.1 := by
  unfold readComp' at h
  obtain ⟨c, hc, h⟩ := (bind_ok_iff _ _ _).mp h
  obtain ⟨_, _, h⟩ := (bind_ok_iff _ _ _).mp h
  obtain ⟨_, _, h⟩ := (bind_ok_iff _ _ _).mp h
  cases h
  exact readComp_ok hc

theorem comps_ok {S : Setup} {C : Codec} {I : Input} {tMeans : List ℝ} : ∀ (l : List V)
    (acc r : List Comp × Store), (∀ i c, acc.1[i]? = some c → CompOk S I tMeans i c) →
    (acc.1.map (·.core.name)).Nodup →
    l.foldlM (fun (acc : List Comp × Store) v => do
      let r ← readComp' S C I tMeans acc.1.length v acc.2
      if acc.1.any (fun c => c.core.name = r.1.core.name) then .terminate
      else .ok (acc.1 ++ [r.1], r.2)) acc = Outcome.ok r →
    (∀ i c, r.1[i]? = some c → CompOk S I tMeans i c) ∧ (r.1.map (·.core.name)).Nodup
  | [], acc, r, h1, h2, e => by cases e; exact ⟨h1, h2⟩
  | v :: l, acc, r, h1, h2, e => by
    rw [List.foldlM_cons] at e
    obtain ⟨acc', ha, e⟩ := (bind_ok_iff _ _ _).mp e
    obtain ⟨q, hq, ha⟩ := (bind_ok_iff _ _ _).mp ha
    split at ha
    · cases ha
    rename_i hx
    cases ha
    refine comps_ok l _ r ?_ ?_ e
    · intro i c hc
      dsimp only at hc
      by_cases hi : i < acc.1.length
      · rw [List.getElem?_append_left hi] at hc
        exact h1 i c hc
      · rw [List.getElem?_append_right (by omega)] at hc
        have hz : i - acc.1.length = 0 := by
          have := (List.getElem?_eq_some_iff.mp hc).1
          rw [List.length_singleton] at this
          omega
        rw [hz] at hc
        cases hc
        rw [show i = acc.1.length by omega]
        exact readComp'_ok hq
    · rw [List.map_append, List.nodup_append]
      refine ⟨h2, List.nodup_singleton _, fun a ha b hb hab => ?_⟩
      obtain ⟨w, hw, rfl⟩ := List.mem_map.mp ha
      rw [List.map_singleton, List.mem_singleton] at hb
      subst hb
      exact hx (List.any_eq_true.mpr ⟨w, hw, decide_eq_true hab⟩)

theorem readComps_ok {S : Setup} {C : Codec} {I : Input} {tMeans : List ℝ} {m : V} {s : Store}
    {r : List Comp × Store} (h : readComps S C I tMeans m s = .ok r) :
    (∀ i c, r.1[i]? = some c → CompOk S I tMeans i c) ∧ (r.1.map (·.core.name)).Nodup := by
  unfold readComps at h
  obtain ⟨l, _, h⟩ := (bind_ok_iff _ _ _).mp h
  exact comps_ok l ([], s) r (fun i c h => by cases h) List.nodup_nil h

/-! ### final-state mass dependence -/

theorem readFsmdBin_ok {S : Setup} {C : Codec} {v : V} {b : FsmdBin} (h : readFsmdBin S C v = .ok b) :
    b.pars.map (·.name) = (S.formula b.text).1 := by
  unfold readFsmdBin at h
  split at h
  · obtain ⟨text, _, h⟩ := (bind_ok_iff _ _ _).mp h
    obtain ⟨pars, hp, h⟩ := (bind_ok_iff _ _ _).mp h
    cases h
    have := mapM_map_eq (·.name) id (fun a b hab => readPar_name hab) hp
    rw [List.map_id] at this
    exact this
  · cases h

theorem need_ok {α : Type} {o : Option α} {a : α} (h : need o = .ok a) : o = some a := by
  cases o with
  | none => cases h
  | some b => cases h; rfl

theorem readFsmd_ok {S : Setup} {C : Codec} {I : Input} {id : ℕ} {m : V} {s : Store}
    {r : Option FsmdC × Store} (h : readFsmd S C I id m s = .ok r) :
    ∀ f, r.1 = some f → FsmdOk S I id f := by
  intro f hf
  unfold readFsmd at h
  rcases opt_inv h with rfl | ⟨w, h⟩
  · cases hf
  split at h
  · obtain ⟨b, hb, h⟩ := (bind_ok_iff _ _ _).mp h
    obtain ⟨core, hc, h⟩ := (bind_ok_iff _ _ _).mp h
    cases h
    cases hf
    refine ⟨fun b' hb' => ?_, Or.inl ⟨b, rfl, need_ok hc⟩⟩
    rw [List.mem_singleton] at hb'
    subst hb'
    exact readFsmdBin_ok hb
  · obtain ⟨bs, hb, h⟩ := (bind_ok_iff _ _ _).mp h
    obtain ⟨core, hc, h⟩ := (bind_ok_iff _ _ _).mp h
    cases h
    cases hf
    refine ⟨fun b' hb' => ?_, Or.inr (need_ok hc)⟩
    obtain ⟨v, _, hv⟩ := mapM_mem hb b' hb'
    exact readFsmdBin_ok hv
  · cases h

/-! ### the whole configuration -/

/-- what holds of a configuration that has been read -/
structure CfgOk (S : Setup) (dat : List BinC → Input) (cfg : Config) : Prop where
  waves : ∀ b ∈ cfg.bins, (b.waves.map (·.name)).Nodup
  comps : ∀ i c, cfg.comps[i]? = some c → CompOk S (inputOf dat cfg.bins) (cfg.bins.map (·.tMean)) i c
  names : (cfg.comps.map (·.core.name)).Nodup
  fsmd : ∀ f, cfg.fsmd = some f → FsmdOk S (inputOf dat cfg.bins) cfg.comps.length f
  model : mkModel (inputOf dat cfg.bins) (cfg.comps.map (·.core)) (cfg.fsmd.map (·.core)) cfg.anchors
    = .ok cfg.model

theorem readConfig_ok {S : Setup} {C : Codec} {dat : List BinC → Input} {root : V} {cfg : Config}
    (h : readConfig S C dat root = .ok cfg) : CfgOk S dat cfg := by
  unfold readConfig at h
  obtain ⟨q, _, h⟩ := (bind_ok_iff _ _ _).mp h
  obtain ⟨fr, _, h⟩ := (bind_ok_iff _ _ _).mp h
  obtain ⟨bins, hbins, h⟩ := (bind_ok_iff _ _ _).mp h
  obtain ⟨r, hr, h⟩ := (bind_ok_iff _ _ _).mp h
  cases h
  unfold readModel at hr
  obtain ⟨m, hr⟩ := mand_inv hr
  obtain ⟨as, _, hr⟩ := (bind_ok_iff _ _ _).mp hr
  obtain ⟨cs, hcs, hr⟩ := (bind_ok_iff _ _ _).mp hr
  obtain ⟨f, hf, hr⟩ := (bind_ok_iff _ _ _).mp hr
  obtain ⟨M, hM, hr⟩ := (bind_ok_iff _ _ _).mp hr
  cases hr
  obtain ⟨c1, c2⟩ := readComps_ok hcs
  exact ⟨readInput_nodup hbins, c1, c2, readFsmd_ok hf, hM⟩

end Rpwa.ResCfg
