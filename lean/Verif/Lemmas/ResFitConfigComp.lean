import Verif.Lemmas.ResFitConfig
import Mathlib.Algebra.BigOperators.Group.List.Basic
import Mathlib.Tactic.FieldSimp
import Mathlib.Algebra.Order.Field.Basic

/-! Lemmas for C77: parameters and components. -/

namespace Rpwa.ResCfg

open ResFit (Name Params Input Channel Maps Component Shape ShapeCfg Formula Fsmd Model)
open Pick (bind_ok_iff mapM_ok_iff)

/-- an error that can be read back: all but an infinity that is written as the text `inf` -/
def ErrOk (C : Codec) (e : Num) : Prop := e = .inf → C.parseN (C.fmtN .inf) = some .inf

theorem errNum_fmt {C : Codec} (hC : C.Faithful) {e : Num} (he : ErrOk C e) :
    errNum C (.scalar (C.fmtN e)) = .ok e := by
  unfold errNum num?
  dsimp only
  cases e with
  | fin x => rw [hC.fin]
  | nan =>
    rcases hC.nan with h | ⟨h, h'⟩
    · rw [h]
    · rw [h, h']
      rfl
  | inf => rw [he rfl]
  | ninf => rw [hC.ninf]

/-- a parameter with new value and error -/
def Par.upd (p : Par) (v : ℝ) (e : Num) : Par := { p with start := v, error := e }

theorem readPar_write {C : Codec} (hC : C.Faithful) {l : List (Name × V)} (p : Par) (v : ℝ) {e : Num}
    (he : ErrOk C e) (st : ℝ) (h : l.lookup p.name = some (writePar C p v e).2) :
    readPar C (.map l) p.name st = .ok (p.upd v e) := by
  unfold readPar
  rw [mand_map _ h]
  obtain ⟨name, start, err, fixed, lower, upper, step⟩ := p
  unfold writePar Par.upd
  dsimp only
  cases lower <;> cases upper
  · dsimp only
    rw [mand_map (w := wNum C v) _ rfl, real_wNum hC, Outcome.ok_bind,
      mand_map (w := .scalar (C.fmtB fixed)) _ rfl, bool_fmt hC, Outcome.ok_bind,
      opt_some (w := .scalar (C.fmtN e)) _ _ rfl, errNum_fmt hC he, Outcome.ok_bind,
      opt_none _ _ rfl, Outcome.ok_bind, opt_none _ _ rfl, Outcome.ok_bind,
      opt_some (w := wNum C step) _ _ rfl, real_wNum hC, Outcome.ok_bind]
  · rename_i b
    dsimp only
    rw [mand_map (w := wNum C v) _ rfl, real_wNum hC, Outcome.ok_bind,
      mand_map (w := .scalar (C.fmtB fixed)) _ rfl, bool_fmt hC, Outcome.ok_bind,
      opt_some (w := .scalar (C.fmtN e)) _ _ rfl, errNum_fmt hC he, Outcome.ok_bind,
      opt_none _ _ rfl, Outcome.ok_bind, opt_some (w := wNum C b) _ _ rfl, real_wNum hC, Outcome.ok_bind,
      Outcome.ok_bind,
      opt_some (w := wNum C step) _ _ rfl, real_wNum hC, Outcome.ok_bind]
  · rename_i a
    dsimp only
    rw [mand_map (w := wNum C v) _ rfl, real_wNum hC, Outcome.ok_bind,
      mand_map (w := .scalar (C.fmtB fixed)) _ rfl, bool_fmt hC, Outcome.ok_bind,
      opt_some (w := .scalar (C.fmtN e)) _ _ rfl, errNum_fmt hC he, Outcome.ok_bind,
      opt_some (w := wNum C a) _ _ rfl, real_wNum hC, Outcome.ok_bind, Outcome.ok_bind,
      opt_none _ _ rfl, Outcome.ok_bind,
      opt_some (w := wNum C step) _ _ rfl, real_wNum hC, Outcome.ok_bind]
  · rename_i a b
    dsimp only
    rw [mand_map (w := wNum C v) _ rfl, real_wNum hC, Outcome.ok_bind,
      mand_map (w := .scalar (C.fmtB fixed)) _ rfl, bool_fmt hC, Outcome.ok_bind,
      opt_some (w := .scalar (C.fmtN e)) _ _ rfl, errNum_fmt hC he, Outcome.ok_bind,
      opt_some (w := wNum C a) _ _ rfl, real_wNum hC, Outcome.ok_bind, Outcome.ok_bind,
      opt_some (w := wNum C b) _ _ rfl, real_wNum hC, Outcome.ok_bind, Outcome.ok_bind,
      opt_some (w := wNum C step) _ _ rfl, real_wNum hC, Outcome.ok_bind]

/-- the parameters with the values of a store, beginning with number `first` of row `id` -/
def updPars (s : Store) (id first : ℕ) (pars : List Par) : List Par :=
  pars.zipIdx.map fun x => x.1.upd (s.P.par id (first + x.2)) (s.E id (first + x.2))

/-- reading all parameters back -/
theorem readPars_write {C : Codec} (hC : C.Faithful) {l : List (Name × V)} {α : Type} (nm : α → Name)
    (st : α → ℝ) (val : ℕ → ℝ) (err : ℕ → Num) (herr : ∀ k, ErrOk C (err k)) :
    ∀ (ds : List α) (pars : List Par) (k : ℕ), pars.map (·.name) = ds.map nm →
    (∀ i p, pars[i]? = some p → l.lookup p.name = some (writePar C p (val (k + i)) (err (k + i))).2) →
    (ds.mapM fun d => readPar C (.map l) (nm d) (st d))
      = .ok ((pars.zipIdx k).map fun x => x.1.upd (val x.2) (err x.2))
  | [], [], k, _, _ => rfl
  | [], p :: ps, k, h, _ => by cases h
  | d :: ds, [], k, h, _ => by cases h
  | d :: ds, p :: ps, k, h, hl => by
    rw [List.map_cons, List.map_cons] at h
    obtain ⟨h1, h2⟩ := List.cons.inj h
    rw [List.mapM_cons, ← h1, readPar_write hC p (val k) (herr k) (st d) (hl 0 p rfl), Outcome.ok_bind,
      readPars_write hC nm st val err herr ds ps (k + 1) h2 (fun i q hq => by
        have := hl (i + 1) q (by rw [List.getElem?_cons_succ]; exact hq)
        rw [show k + 1 + i = k + (i + 1) by omega]
        exact this), Outcome.ok_bind]
    rfl

/-! ### constants -/

/-- points of a phase-space integral the reader accepts -/
def PtsOk (pts : List (ℝ × ℝ)) : Prop := 2 ≤ pts.length ∧ pts.IsChain fun a b => a.1 ≤ b.1

theorem readPoints_write {C : Codec} (hC : C.Faithful) : ∀ (pts acc : List (ℝ × ℝ)),
    (acc ++ pts).IsChain (fun a b => a.1 ≤ b.1) →
    (pts.map fun p => wPair C p.1 p.2).foldlM (readPoint C) acc = Outcome.ok (acc ++ pts)
  | [], acc, _ => by rw [List.append_nil]; rfl
  | p :: pts, acc, h => by
    have hp : readPoint C acc (wPair C p.1 p.2) = .ok (acc ++ [p]) := by
      unfold readPoint
      rw [pair_wPair hC, Outcome.ok_bind]
      cases hl : acc.getLast? with
      | none =>
        rw [List.getLast?_eq_none_iff] at hl
        subst hl
        rfl
      | some q =>
        dsimp only
        rw [List.isChain_append] at h
        have := h.2.2 q hl p (by rw [List.head?_cons]; rfl)
        rw [if_neg (not_lt.mpr this)]
    rw [List.map_cons, List.foldlM_cons, hp, Outcome.ok_bind,
      readPoints_write hC pts (acc ++ [p]) (by rw [List.append_assoc]; exact h), List.append_assoc]
    rfl

theorem readIntegral_write {C : Codec} (hC : C.Faithful) {l : List (Name × V)} {pts : List (ℝ × ℝ)}
    (hp : PtsOk pts) (h : l.lookup kIntegral = some (wIntegral C pts).2) :
    readIntegral C (.map l) = .ok pts := by
  unfold readIntegral
  rw [mand_map _ h]
  unfold wIntegral seqOf
  dsimp only
  rw [Outcome.ok_bind, if_neg (by rw [List.length_map]; have := hp.1; omega),
    readPoints_write hC pts [] hp.2]
  rfl

/-- constants a component may have: points in order, `t'` means of the input -/
def Consts.Ok (tMeans : List ℝ) : Consts → Prop
  | .integralWidth l => ∀ x ∈ l, PtsOk x.2
  | .tPrime t .. => t = tMeans
  | .exponentialIntegral pts _ => PtsOk pts
  | .tPrimeIntegral t pts _ => t = tMeans ∧ PtsOk pts
  | _ => True

theorem readDyn_write {C : Codec} (hC : C.Faithful) {l : List (Name × V)} {x : ℝ × ℤ × ℝ × ℝ}
    (h1 : l.lookup kM1 = some (wNum C x.2.2.1)) (h2 : l.lookup kM2 = some (wNum C x.2.2.2))
    (h3 : l.lookup kL = some (.scalar (C.fmtI x.2.1))) (h4 : l.lookup kRatio = some (wNum C x.1)) :
    readDyn C (.map l) = .ok x := by
  unfold readDyn
  rw [mand_map _ h4, real_wNum hC, Outcome.ok_bind, mand_map _ h3, int_fmt hC, Outcome.ok_bind,
    mand_map _ h1, real_wNum hC, Outcome.ok_bind, mand_map _ h2, real_wNum hC, Outcome.ok_bind]

theorem readIntCh_write {C : Codec} (hC : C.Faithful) {l : List (Name × V)} {x : ℝ × List (ℝ × ℝ)}
    (hp : PtsOk x.2) (h1 : l.lookup kIntegral = some (wIntegral C x.2).2)
    (h2 : l.lookup kRatio = some (wNum C x.1)) : readIntCh C (.map l) = .ok x := by
  unfold readIntCh
  rw [mand_map _ h2, real_wNum hC, Outcome.ok_bind, readIntegral_write hC hp h1, Outcome.ok_bind]

/-- reading a list of written entries -/
theorem mapM_range' {β : Type} (w : ℕ → V) (rd : V → Outcome β) (l : List β) (a n : ℕ)
    (h : ∀ i x, a ≤ i → i < a + n → l[i]? = some x → rd (w i) = .ok x) (hl : a + n ≤ l.length) :
    ((List.range' a n).map w).mapM rd = .ok ((l.drop a).take n) := by
  induction n generalizing a with
  | zero => rw [List.take_zero]; rfl
  | succ n ih =>
    have ha : a < l.length := by omega
    rw [List.range'_succ, List.map_cons, List.mapM_cons,
      h a l[a] (Nat.le_refl _) (by omega) (List.getElem?_eq_getElem ha), Outcome.ok_bind,
      ih (a + 1) (fun i x h1 h2 h3 => h i x (by omega) (by omega) h3) (by omega), Outcome.ok_bind,
      List.drop_eq_getElem_cons ha, List.take_succ_cons]
    rfl

theorem mapM_range {β : Type} (w : ℕ → V) (rd : V → Outcome β) (l : List β) (n : ℕ)
    (h : ∀ i x, i < n → l[i]? = some x → rd (w i) = .ok x) (hl : n ≤ l.length) :
    ((List.range n).map w).mapM rd = .ok (l.take n) := by
  rw [List.range_eq_range']
  have := mapM_range' w rd l 0 n (fun i x _ h2 h3 => h i x (by omega) h3) (by omega)
  rw [List.drop_zero] at this
  exact this

/-! ### ratios -/

theorem sum_div (l : List ℝ) (s : ℝ) : (l.map fun v => v / s).sum = l.sum / s := by
  induction l with
  | nil => simp
  | cons a l ih => rw [List.map_cons, List.sum_cons, List.sum_cons, ih, add_div]

/-- normalised ratios stay as they are when they are normalised again -/
theorem normRatios_idem {ratio r : List ℝ} (h : ResFit.normRatios ratio = .ok r) :
    ResFit.normRatios r = .ok r ∧ r.length = ratio.length := by
  unfold ResFit.normRatios at h
  dsimp only at h
  have hsum : ∀ l : List ℝ, l.foldl (· + ·) 0 = l.sum := fun l => (List.sum_eq_foldl).symm
  rw [hsum] at h
  split at h
  · cases h
  · rename_i hn
    cases h
    refine ⟨?_, List.length_map _⟩
    unfold ResFit.normRatios
    dsimp only
    rw [hsum, sum_div]
    by_cases h0 : ratio = []
    · subst h0
      simp
    · have hs : ratio.sum ≠ 0 := fun h => hn ⟨h, h0⟩
      rw [div_self hs, if_neg (fun h => one_ne_zero h.1)]
      congr 1
      rw [List.map_map]
      refine List.map_congr_left fun v _ => ?_
      simp

theorem map_zip_fst {α β : Type} (r : List ℝ) (l : List (α × β)) (f : β → γ) (h : r.length = l.length) :
    ((r.zip l).map fun x => (x.1, x.2.2)).map (·.1) = r ∧
    ((r.zip l).map fun x => (x.1, x.2.2)).map (fun x => f x.2) = l.map fun x => f x.2 := by
  induction r generalizing l with
  | nil => cases l with
    | nil => exact ⟨rfl, rfl⟩
    | cons _ _ => cases h
  | cons a r ih => cases l with
    | nil => cases h
    | cons b l =>
      have := ih l (by simpa using h)
      rw [List.zip_cons_cons, List.map_cons, List.map_cons, List.map_cons, List.map_cons, this.1, this.2]
      exact ⟨rfl, rfl⟩

theorem zip_zip_self {α β : Type} (r : List ℝ) (l : List (α × β)) :
    (r.zip ((r.zip l).map fun x => (x.1, x.2.2))).map (fun x => (x.1, x.2.2))
      = (r.zip l).map fun x => (x.1, x.2.2) := by
  induction r generalizing l with
  | nil => rfl
  | cons a r ih => cases l with
    | nil => rfl
    | cons b l =>
      simp only [List.zip_cons_cons, List.map_cons]
      rw [ih l]

/-- what the component keeps of its constants can be given to the constructor again -/
theorem normed_fix {raw c : Consts} {interp : List (ℝ × ℝ) → ℝ → ℝ} {I : Input}
    {chs : List Channel} (h : raw.normed = .ok c) :
    c.normed = .ok c ∧ (c.cfg interp).build I chs = (raw.cfg interp).build I chs := by
  cases raw with
  | dynamicWidth l =>
    obtain ⟨r, hr, h⟩ := (bind_ok_iff _ _ _).mp h
    cases h
    obtain ⟨hi, hl⟩ := normRatios_idem hr
    rw [List.length_map] at hl
    have hf := fun {γ : Type} (f : ℤ × ℝ × ℝ → γ) => map_zip_fst r l f hl
    constructor
    · unfold Consts.normed
      dsimp only
      rw [(hf id).1, hi, Outcome.ok_bind, zip_zip_self]
    · unfold Consts.cfg
      dsimp only
      rw [(hf id).1, (hf (·.1)).2, (hf (·.2.1)).2, (hf (·.2.2)).2]
      unfold ShapeCfg.build
      dsimp only
      rw [hi, hr]
      simp only [List.length_map, hl]
  | integralWidth l =>
    obtain ⟨r, hr, h⟩ := (bind_ok_iff _ _ _).mp h
    cases h
    obtain ⟨hi, hl⟩ := normRatios_idem hr
    rw [List.length_map] at hl
    have hf := fun {γ : Type} (f : List (ℝ × ℝ) → γ) => map_zip_fst r l f hl
    constructor
    · unfold Consts.normed
      dsimp only
      rw [(hf id).1, hi, Outcome.ok_bind, zip_zip_self]
    · unfold Consts.cfg
      dsimp only
      rw [(hf id).1, (hf (interp ·)).2]
      unfold ShapeCfg.build
      dsimp only
      rw [hi, hr]
      simp only [List.length_map, hl]
  | fixedWidth => cases h; exact ⟨rfl, rfl⟩
  | constant => cases h; exact ⟨rfl, rfl⟩
  | exponential _ _ _ _ => cases h; exact ⟨rfl, rfl⟩
  | tPrime _ _ _ _ _ => cases h; exact ⟨rfl, rfl⟩
  | exponentialIntegral _ _ => cases h; exact ⟨rfl, rfl⟩
  | tPrimeIntegral _ _ _ => cases h; exact ⟨rfl, rfl⟩

end Rpwa.ResCfg

namespace Rpwa.ResCfg

open ResFit (Name Params Input Channel Maps Component Shape ShapeCfg Formula Fsmd Model)
open Pick (bind_ok_iff mapM_ok_iff)

/-! ### keys -/

theorem lookup_skip {l l' : List (Name × V)} {k : Name} (h : k ∉ l.map (·.1)) :
    (l ++ l').lookup k = l'.lookup k := by
  induction l with
  | nil => rfl
  | cons a l ih =>
    rw [List.map_cons, List.mem_cons, not_or] at h
    rw [List.cons_append, List.lookup_cons]
    have : (k == a.1) = false := by rw [beq_eq_false_iff_ne]; exact h.1
    rw [this]
    exact ih h.2

theorem lookup_hit {l l' : List (Name × V)} {k : Name} {v : V} (h : l.lookup k = some v) :
    (l ++ l').lookup k = some v := by
  induction l with
  | nil => cases h
  | cons a l ih =>
    rw [List.lookup_cons] at h
    rw [List.cons_append, List.lookup_cons]
    split at h
    · exact h
    · exact ih h

theorem parDocs_keys (C : Codec) (val : ℕ → ℝ) (err : ℕ → Num) (pars : List Par) (k : ℕ) :
    (((pars.zipIdx k).map fun x => writePar C x.1 (val x.2) (err x.2)).map (·.1)) = pars.map (·.name) := by
  induction pars generalizing k with
  | nil => rfl
  | cons p ps ih => rw [List.zipIdx_cons, List.map_cons, List.map_cons, List.map_cons, ih]; rfl

theorem parDocs_lookup (C : Codec) (val : ℕ → ℝ) (err : ℕ → Num) (pars : List Par) (k : ℕ)
    (hn : (pars.map (·.name)).Nodup) {i : ℕ} {p : Par} (h : pars[i]? = some p) :
    ((pars.zipIdx k).map fun x => writePar C x.1 (val x.2) (err x.2)).lookup p.name
      = some (writePar C p (val (k + i)) (err (k + i))).2 := by
  induction pars generalizing k i with
  | nil => cases h
  | cons q ps ih =>
    rw [List.map_cons, List.nodup_cons] at hn
    rw [List.zipIdx_cons, List.map_cons, List.lookup_cons]
    cases i with
    | zero =>
      rw [List.getElem?_cons_zero] at h
      cases h
      have : (p.name == (writePar C p (val k) (err k)).1) = true := beq_self_eq_true _
      rw [this]
      rfl
    | succ i =>
      rw [List.getElem?_cons_succ] at h
      have : (p.name == (writePar C q (val k) (err k)).1) = false := by
        rw [beq_eq_false_iff_ne]
        intro e
        exact hn.1 (List.mem_map.mpr ⟨p, List.mem_of_getElem? h, e⟩)
      rw [this]
      have := ih (k + 1) hn.2 h
      rw [show k + 1 + i = k + (i + 1) by omega] at this
      exact this

theorem defaults_nodup (k : Kind) : (k.defaults.map (·.1)).Nodup := by
  cases k <;> (show List.Nodup (_ : List Name)) <;> decide +kernel

/-- the other keys of a component are no names of parameters -/
theorem defaults_keys (k : Kind) : ∀ x ∈ [kName, kType, kDecay, kExtra, kM1, kM2, kL, kExponent, kIntegral],
    x ∉ k.defaults.map (·.1) := by
  cases k <;> decide +kernel

theorem kindOf_typeName (k : Kind) : kindOf k.typeName = .ok k := by
  cases k <;> rfl

/-! ### components -/

/-- a component that is the result of reading -/
structure CompOk (S : Setup) (I : Input) (tMeans : List ℝ) (id : ℕ) (c : Comp) : Prop where
  built : build S I id c.core.name c.pars (c.core.channels.map (·.waveName)) c.consts = .ok c
  names : c.pars.map (·.name) = c.consts.kind.defaults.map (·.1)
  consts : c.consts.Ok tMeans
  len : c.core.channels.length ≤ c.total

theorem build_id {S : Setup} {I : Input} {id : ℕ} {name : Name} {pars : List Par} {waves : List Name}
    {raw : Consts} {c : Comp} (h : build S I id name pars waves raw = .ok c) :
    c.core.id = id ∧ c.core.name = name ∧ c.pars = pars ∧ raw.normed = .ok c.consts ∧
      ResFit.readChannels I waves = some c.core.channels ∧
      ResFit.mkMaps S.useBranchings (c.core.channels.map fun ch => (ch.waveName, ch.bins))
        = some c.core.maps ∧ (raw.cfg S.interp).build I c.core.channels = .ok c.core.shape ∧
      (if c.core.shape.sharesBins then ResFit.massBinGroups I else some (ResFit.singleBinGroups I))
        = some c.core.groups := by
  unfold build at h
  obtain ⟨chs, h1, h⟩ := (bind_ok_iff _ _ _).mp h
  obtain ⟨maps, h2, h⟩ := (bind_ok_iff _ _ _).mp h
  obtain ⟨cs, h3, h⟩ := (bind_ok_iff _ _ _).mp h
  obtain ⟨sh, h4, h⟩ := (bind_ok_iff _ _ _).mp h
  obtain ⟨gr, h5, h⟩ := (bind_ok_iff _ _ _).mp h
  cases h
  have hneed : ∀ {α : Type} {o : Option α} {a : α}, need o = .ok a → o = some a := by
    intro α o a h
    cases o with
    | none => cases h
    | some b => cases h; rfl
  exact ⟨rfl, rfl, rfl, h3, hneed h1, hneed h2, h4, hneed h5⟩

theorem build_of {S : Setup} {I : Input} {id : ℕ} {name : Name} {pars : List Par} {waves : List Name}
    {raw : Consts} {chs : List Channel} {maps : Maps} {cs : Consts} {sh : Shape} {gr : List (List ℕ)}
    (h1 : ResFit.readChannels I waves = some chs)
    (h2 : ResFit.mkMaps S.useBranchings (chs.map fun ch => (ch.waveName, ch.bins)) = some maps)
    (h3 : raw.normed = .ok cs) (h4 : (raw.cfg S.interp).build I chs = .ok sh)
    (h5 : (if sh.sharesBins then ResFit.massBinGroups I else some (ResFit.singleBinGroups I)) = some gr) :
    build S I id name pars waves raw = .ok ⟨⟨id, name, chs, maps, gr, sh⟩, pars, cs⟩ := by
  unfold build
  rw [h1]
  show (Outcome.ok chs >>= _) = _
  rw [Outcome.ok_bind, h2]
  show (Outcome.ok maps >>= _) = _
  rw [Outcome.ok_bind, h3, Outcome.ok_bind, h4, Outcome.ok_bind, h5]
  rfl

/-- the constructor gives the same component for the constants and channels the component keeps, and
for other parameters -/
theorem build_again {S : Setup} {I : Input} {id : ℕ} {name : Name} {pars : List Par} {waves : List Name}
    {raw : Consts} {c : Comp} (h : build S I id name pars waves raw = .ok c)
    (hw : waves = c.core.channels.map (·.waveName)) (pars' : List Par) :
    build S I id c.core.name pars' (c.core.channels.map (·.waveName)) c.consts
      = .ok { c with pars := pars' } := by
  obtain ⟨h1, h2, h3, h4, h5, h6, h7, h8⟩ := build_id h
  obtain ⟨h9, h10⟩ := normed_fix (interp := S.interp) (I := I) (chs := c.core.channels) h4
  rw [← hw, build_of h5 h6 h9 (h10.trans h7) h8]
  obtain ⟨⟨_, _, _, _, _, _⟩, _, _⟩ := c
  dsimp only at h1 h2 h3
  subst h1 h2 h3
  rfl

theorem CompOk.again {S : Setup} {I : Input} {tMeans : List ℝ} {id : ℕ} {c : Comp}
    (h : CompOk S I tMeans id c) (pars' : List Par) :
    build S I id c.core.name pars' (c.core.channels.map (·.waveName)) c.consts
      = .ok { c with pars := pars' } := build_again h.built rfl pars'

theorem chans_waves (C : Codec) (c : Comp) (P : Params) :
    (((List.range c.core.channels.length).map (writeChan C c P)).mapM fun v => mand v kAmp str)
      = .ok (c.core.channels.map (·.waveName)) := by
  have := mapM_range (writeChan C c P) (fun v => mand v kAmp str) (c.core.channels.map (·.waveName))
    c.core.channels.length (fun i x hi hx => by
      unfold writeChan
      dsimp only
      rw [mand_map (w := .text (c.core.chan i).waveName) _ rfl]
      unfold str Component.chan
      rw [List.getElem?_map, List.getElem?_eq_getElem hi] at hx
      rw [List.getD_eq_getElem _ _ hi]
      simpa [V.text] using hx) (by rw [List.length_map])
  rw [this, ← List.length_map (f := fun ch : Channel => ch.waveName), List.take_length]

theorem extras_write (C : Codec) (s : Store) (c : Comp) (h : c.core.channels.length ≤ c.total)
    (hk : kExtra ∉ c.pars.map (·.name)) :
    extras (writeComp C s c) = .ok ((List.range' c.core.channels.length
      (c.total - c.core.channels.length)).map fun i => .map (writeChConsts C c.consts i)) := by
  unfold extras writeComp
  by_cases ht : c.total > c.core.channels.length
  · rw [if_pos ht, opt_some (w := .seq ((List.range' c.core.channels.length
      (c.total - c.core.channels.length)).map fun i => .map (writeChConsts C c.consts i)))]
    refine lookup_hit ?_
    rw [List.append_assoc, List.append_assoc, lookup_skip (show kExtra ∉ [kName, kType] by decide +kernel),
      lookup_skip]
    · rfl
    · rw [parDocs_keys C (fun k => s.P.par c.core.id k) (fun k => s.E c.core.id k) c.pars 0]
      exact hk
  · rw [if_neg ht, opt_none]
    · rw [show c.total - c.core.channels.length = 0 by omega]
      rfl
    · rw [List.append_nil, List.append_assoc, List.append_assoc,
        lookup_skip (show kExtra ∉ [kName, kType] by decide +kernel), lookup_skip]
      · cases c.consts <;> rfl
      · rw [parDocs_keys C (fun k => s.P.par c.core.id k) (fun k => s.E c.core.id k) c.pars 0]
        exact hk

/-- lookup of a constant of the component -/
theorem lookup_const (C : Codec) (s : Store) (c : Comp) {k : Name}
    (h1 : k ∉ [kName, kType, kDecay, kExtra]) (h2 : k ∉ c.pars.map (·.name)) {l : List (Name × V)}
    (hl : writeComp C s c = .map l) : l.lookup k = (writeConsts C c.consts).lookup k := by
  unfold writeComp at hl
  cases hl
  rw [List.mem_cons, List.mem_cons, List.mem_cons, List.mem_cons, not_or, not_or, not_or, not_or] at h1
  rw [List.append_assoc, List.append_assoc, List.append_assoc, lookup_skip, lookup_skip, lookup_skip,
    lookup_skip]
  · split_ifs
    · simp [h1.2.2.2.1]
    · simp
  · simp [h1.2.2.1]
  · rw [parDocs_keys C (fun k => s.P.par c.core.id k) (fun k => s.E c.core.id k) c.pars 0]
    exact h2
  · simp [h1.1, h1.2.1]

theorem readConsts_write {S : Setup} {C : Codec} (hC : C.Faithful) {I : Input} {tMeans : List ℝ} {id : ℕ}
    {c : Comp} (h : CompOk S I tMeans id c) (s : Store) :
    readConsts C tMeans (writeComp C s c)
      ((List.range c.core.channels.length).map (writeChan C c s.P)) c.consts.kind = .ok c.consts := by
  have hkeys := defaults_keys c.consts.kind
  rw [← h.names] at hkeys
  have hex := extras_write C s c h.len (hkeys _ (by decide +kernel))
  obtain ⟨l, hl⟩ : ∃ l, writeComp C s c = .map l := ⟨_, rfl⟩
  have hlook := fun {k : Name} (h1 : k ∉ [kName, kType, kDecay, kExtra])
    (h2 : k ∈ [kName, kType, kDecay, kExtra, kM1, kM2, kL, kExponent, kIntegral]) =>
    lookup_const C s c h1 (hkeys k h2) hl
  have hlen := h.len
  have hcok := h.consts
  unfold Comp.total at hex hlen
  cases hc : c.consts with
  | fixedWidth => rfl
  | constant => rfl
  | dynamicWidth cs =>
    rw [hc] at hex hlen
    dsimp only at hex hlen
    unfold Consts.kind readConsts
    dsimp only
    rw [mapM_range (writeChan C c s.P) (readDyn C) cs c.core.channels.length (fun i x hi hx => by
      unfold writeChan
      dsimp only
      rw [hc]
      unfold writeChConsts
      dsimp only
      rw [hx]
      dsimp only
      split_ifs <;> exact readDyn_write hC rfl rfl rfl rfl) hlen, Outcome.ok_bind, hex, Outcome.ok_bind,
      mapM_range' _ (readDyn C) cs c.core.channels.length _ (fun i x _ hi hx => by
        unfold writeChConsts
        dsimp only
        rw [hx]
        exact readDyn_write hC rfl rfl rfl rfl) (by omega), Outcome.ok_bind]
    rw [List.take_of_length_le (l := cs.drop _) (by rw [List.length_drop]), List.take_append_drop]
  | integralWidth cs =>
    rw [hc] at hex hlen hcok
    dsimp only at hex hlen
    unfold Consts.kind readConsts
    dsimp only
    rw [mapM_range (writeChan C c s.P) (readIntCh C) cs c.core.channels.length (fun i x hi hx => by
      unfold writeChan
      dsimp only
      rw [hc]
      unfold writeChConsts
      dsimp only
      rw [hx]
      dsimp only
      split_ifs <;> exact readIntCh_write hC (hcok x (List.mem_of_getElem? hx)) rfl rfl) hlen,
      Outcome.ok_bind, hex, Outcome.ok_bind,
      mapM_range' _ (readIntCh C) cs c.core.channels.length _ (fun i x _ hi hx => by
        unfold writeChConsts
        dsimp only
        rw [hx]
        exact readIntCh_write hC (hcok x (List.mem_of_getElem? hx)) rfl rfl) (by omega), Outcome.ok_bind]
    rw [List.take_of_length_le (l := cs.drop _) (by rw [List.length_drop]), List.take_append_drop]
  | exponential ll m1 m2 e =>
    unfold Consts.kind readConsts
    dsimp only
    rw [hl, opt_some (w := .scalar (C.fmtI ll)) _ _
      ((hlook (k := kL) (by decide +kernel) (by decide +kernel)).trans (by rw [hc]; rfl)), int_fmt hC, Outcome.ok_bind,
      mand_map (w := wNum C m1) _
      ((hlook (k := kM1) (by decide +kernel) (by decide +kernel)).trans (by rw [hc]; rfl)), real_wNum hC, Outcome.ok_bind,
      mand_map (w := wNum C m2) _
      ((hlook (k := kM2) (by decide +kernel) (by decide +kernel)).trans (by rw [hc]; rfl)), real_wNum hC, Outcome.ok_bind,
      opt_some (w := wNum C e) _ _
      ((hlook (k := kExponent) (by decide +kernel) (by decide +kernel)).trans (by rw [hc]; rfl)), real_wNum hC,
      Outcome.ok_bind]
  | tPrime t ll m1 m2 e =>
    rw [hc] at hcok
    unfold Consts.kind readConsts
    dsimp only
    rw [hl, opt_some (w := .scalar (C.fmtI ll)) _ _
      ((hlook (k := kL) (by decide +kernel) (by decide +kernel)).trans (by rw [hc]; rfl)), int_fmt hC, Outcome.ok_bind,
      mand_map (w := wNum C m1) _
      ((hlook (k := kM1) (by decide +kernel) (by decide +kernel)).trans (by rw [hc]; rfl)), real_wNum hC, Outcome.ok_bind,
      mand_map (w := wNum C m2) _
      ((hlook (k := kM2) (by decide +kernel) (by decide +kernel)).trans (by rw [hc]; rfl)), real_wNum hC, Outcome.ok_bind,
      opt_some (w := wNum C e) _ _
      ((hlook (k := kExponent) (by decide +kernel) (by decide +kernel)).trans (by rw [hc]; rfl)), real_wNum hC,
      Outcome.ok_bind]
    rw [show t = tMeans from hcok]
  | exponentialIntegral pts e =>
    rw [hc] at hcok
    unfold Consts.kind readConsts
    dsimp only
    rw [hl, readIntegral_write hC hcok
      ((hlook (k := kIntegral) (by decide +kernel) (by decide +kernel)).trans (by rw [hc]; rfl)), Outcome.ok_bind,
      mand_map (w := wNum C e) _
      ((hlook (k := kExponent) (by decide +kernel) (by decide +kernel)).trans (by rw [hc]; rfl)), real_wNum hC,
      Outcome.ok_bind]
  | tPrimeIntegral t pts e =>
    rw [hc] at hcok
    unfold Consts.kind readConsts
    dsimp only
    rw [hl, readIntegral_write hC hcok.2
      ((hlook (k := kIntegral) (by decide +kernel) (by decide +kernel)).trans (by rw [hc]; rfl)), Outcome.ok_bind,
      mand_map (w := wNum C e) _
      ((hlook (k := kExponent) (by decide +kernel) (by decide +kernel)).trans (by rw [hc]; rfl)), real_wNum hC,
      Outcome.ok_bind]
    rw [hcok.1]

theorem lookup_decay (C : Codec) (s : Store) (c : Comp) (h : kDecay ∉ c.pars.map (·.name)) :
    ∃ l, writeComp C s c = .map l ∧
      l.lookup kDecay = some (.seq ((List.range c.core.channels.length).map (writeChan C c s.P))) := by
  refine ⟨_, rfl, ?_⟩
  rw [List.append_assoc, List.append_assoc, List.append_assoc,
    lookup_skip (show kDecay ∉ [kName, kType] by decide +kernel), lookup_skip]
  · rfl
  · rw [parDocs_keys C (fun k => s.P.par c.core.id k) (fun k => s.E c.core.id k) c.pars 0]
    exact h

/-- reading a written component -/
theorem readComp_write {S : Setup} {C : Codec} (hC : C.Faithful) {I : Input} {tMeans : List ℝ} {id : ℕ}
    {c : Comp} (h : CompOk S I tMeans id c) (s : Store) (hE : ∀ k, ErrOk C (s.E id k)) :
    readComp S C I tMeans id (writeComp C s c) = .ok { c with pars := updPars s id 0 c.pars } := by
  have hid : c.core.id = id := (build_id h.built).1
  have hkeys := defaults_keys c.consts.kind
  rw [← h.names] at hkeys
  have hnd := defaults_nodup c.consts.kind
  rw [← h.names] at hnd
  obtain ⟨l, hl, hdec⟩ := lookup_decay C s c (hkeys _ (by decide +kernel))
  have hl' := hl
  unfold writeComp at hl'
  have hl' := (V.map.inj hl').symm
  have hname : l.lookup kName = some (.text c.core.name) := by rw [hl']; rfl
  have htype : l.lookup kType = some (.text c.consts.kind.typeName) := by rw [hl']; rfl
  have hpars : (c.consts.kind.defaults.mapM fun d => readPar C (.map l) d.1 d.2)
      = .ok (updPars s id 0 c.pars) := by
    have := readPars_write hC (l := l) (fun d : Name × ℝ => d.1) (fun d => d.2) (fun k => s.P.par id k)
      (fun k => s.E id k) hE c.consts.kind.defaults c.pars 0 h.names (fun i p hp => by
        rw [hl', List.append_assoc, List.append_assoc, List.append_assoc, lookup_skip]
        · have := parDocs_lookup C (fun k => s.P.par c.core.id k) (fun k => s.E c.core.id k) c.pars 0 hnd hp
          rw [lookup_hit this, hid]
        · have hm : p.name ∈ c.pars.map (·.name) := List.mem_map.mpr ⟨p, List.mem_of_getElem? hp, rfl⟩
          intro hc
          have h2 : p.name ∈ [kName, kType, kDecay, kExtra, kM1, kM2, kL, kExponent, kIntegral] := by
            rcases List.mem_cons.mp hc with e | hc
            · rw [e]; exact List.mem_cons_self
            · rw [List.mem_singleton.mp hc]; exact List.mem_cons_of_mem _ List.mem_cons_self
          exact hkeys _ h2 hm)
    rw [this]
    unfold updPars
    congr 1
    refine List.map_congr_left fun x _ => ?_
    rw [Nat.zero_add]
  have hcs := readConsts_write hC h s
  unfold readComp
  rw [hl] at hcs ⊢
  rw [opt_some _ _ htype]
  show ((kindOf c.consts.kind.typeName) >>= _) = _
  rw [kindOf_typeName, Outcome.ok_bind, mand_map _ hname]
  show (Outcome.ok c.core.name >>= _) = _
  rw [Outcome.ok_bind, hpars, Outcome.ok_bind, mand_map _ hdec]
  show (Outcome.ok ((List.range c.core.channels.length).map (writeChan C c s.P)) >>= _) = _
  rw [Outcome.ok_bind, chans_waves, Outcome.ok_bind, hcs, Outcome.ok_bind]
  exact h.again _

end Rpwa.ResCfg
