import Verif.Lemmas.WaveNameDecode
import Verif.Props.SpinDensity
/-!
# Wave names (C47)

The name of a wave identifies the wave, and names of production amplitudes of different waves are never found in each other: the
assumption `Labelled.separate` under which the fit-result theorems (C30 – C32) are stated holds for all generated names. -/
namespace Rpwa.Fit

/-- text of the header bracket. -/
def headerText (t : WaveTopology) : Name :=
  spinText t.X.isospin ++ parityText t.X.G ++ ',' :: (spinText t.X.J ++ parityText t.X.P ++ parityText t.X.C ++
    ',' :: (spinText t.X.spinProj ++ parityText t.X.reflectivity))

def bodyText (t : WaveTopology) : Name :=
  '=' :: '[' :: (dText t.d1 ++ '[' :: (spinText t.L ++ ',' :: (spinText t.S ++ ']' :: (dText t.d2 ++ [']']))))

theorem waveName_eq (t : WaveTopology) (ht : GoodTopology t) : waveNameFromTopology t = '[' :: (headerText t ++ ']' :: bodyText t) := by
  unfold waveNameFromTopology vertexName headerText bodyText
  simp only [sanitize_append, sanitize_idem]
  rw [sanitize_daughter _ ht.2.2.1, sanitize_daughter _ ht.2.2.2]
  simp only [sanitize_spinText, sanitize_parityText]
  rw [show sanitize "=[".toList = ['=', '['] from by decide +kernel, show sanitize "[".toList = ['['] from by decide +kernel,
    show sanitize ",".toList = [','] from by decide +kernel, show sanitize "]".toList = [']'] from by decide +kernel]
  simp only [List.append_assoc, List.cons_append, List.nil_append]

theorem headerText_clean (t : WaveTopology) : Clean (headerText t) := by
  unfold headerText
  exact ((clean_spin _).append (clean_parity _)).append (clean_cons (by decide)
    ((((clean_spin _).append (clean_parity _)).append (clean_parity _)).append (clean_cons (by decide) ((clean_spin _).append (clean_parity _)))))

theorem headerText_count (t : WaveTopology) : (headerText t).count ',' = 2 := by
  unfold headerText
  rw [List.count_append (l₁ := spinText t.X.isospin ++ _), List.count_cons_self, List.count_append (l₁ := _ ++ parityText t.X.C), List.count_cons_self,
    List.count_eq_zero_of_not_mem (spinParity_no _ _ _ (by decide) (by decide) (by decide) (by decide)),
    List.count_eq_zero_of_not_mem (jpc_no _ _ _ _ (by decide) (by decide) (by decide) (by decide)),
    List.count_eq_zero_of_not_mem (spinParity_no _ _ _ (by decide) (by decide) (by decide) (by decide))]

theorem headerText_inj {t u : WaveTopology} (ht : GoodTopology t) (hu : GoodTopology u) (h : headerText t = headerText u) :
    SameQn t.X u.X ∧ t.X.spinProj = u.X.spinProj ∧ t.X.reflectivity = u.X.reflectivity := by
  unfold headerText at h
  obtain ⟨h1, h2⟩ := char_sep ',' (spinParity_no _ _ _ (by decide) (by decide) (by decide) (by decide))
    (spinParity_no _ _ _ (by decide) (by decide) (by decide) (by decide)) h
  obtain ⟨h3, h4⟩ := char_sep ',' (jpc_no _ _ _ _ (by decide) (by decide) (by decide) (by decide))
    (jpc_no _ _ _ _ (by decide) (by decide) (by decide) (by decide)) h2
  obtain ⟨a1, a2⟩ := spinParity_inj ht.1.2.1 hu.1.2.1 h1
  obtain ⟨b1, b2, b3⟩ := jpc_inj ht.1.1 hu.1.1 ht.1.2.2 hu.1.2.2 h3
  obtain ⟨c1, c2⟩ := spinParity_inj ht.2.1 hu.2.1 h4
  exact ⟨⟨a1, a2, b1, b2, b3⟩, c1, c2⟩

theorem waveName_decode {t u : WaveTopology} (ht : GoodTopology t) (hu : GoodTopology u) {x y : Name}
    (h : waveNameFromTopology t ++ x = waveNameFromTopology u ++ y) : SameWave t u ∧ x = y := by
  rw [waveName_eq t ht, waveName_eq u hu] at h
  have h := (List.cons.inj h).2
  replace h : headerText t ++ ']' :: (bodyText t ++ x) = headerText u ++ ']' :: (bodyText u ++ y) := by
    simpa only [List.append_eq, List.append_assoc, List.cons_append] using h
  obtain ⟨h1, h2⟩ := char_sep ']' (clean_nb (headerText_clean t)).2 (clean_nb (headerText_clean u)).2 h
  obtain ⟨q1, q2, q3⟩ := headerText_inj ht hu h1
  unfold bodyText at h2
  have h3 := (List.cons.inj (List.cons.inj h2).2).2
  replace h3 : dText t.d1 ++ '[' :: (spinText t.L ++ ',' :: (spinText t.S ++ ']' :: (dText t.d2 ++ ']' :: x))) =
      dText u.d1 ++ '[' :: (spinText u.L ++ ',' :: (spinText u.S ++ ']' :: (dText u.d2 ++ ']' :: y))) := by
    simpa only [List.append_eq, List.append_assoc, List.cons_append, List.nil_append] using h3
  have rest : ∀ (L S : ℤ) (d2 : Decay) (x : Name), GoodDecay d2 → Rest ('[' :: (spinText L ++ ',' :: (spinText S ++ ']' :: (dText d2 ++ ']' :: x)))) := by
    intro L S d2 x hg
    obtain ⟨c, s, hc, hne, -⟩ := dText_head d2 hg
    refine .inr ⟨spinText L ++ ',' :: spinText S, c, s ++ ']' :: x, ?_, ?_, hne⟩
    · rw [hc]; simp only [List.append_assoc, List.cons_append]
    · exact (clean_nb ((clean_spin L).append (clean_cons (by decide) (clean_spin S)))).2
  obtain ⟨s1, h5⟩ := dText_decode t.d1 u.d1 ht.2.2.1 hu.2.2.1 _ _ (rest _ _ _ _ ht.2.2.2) (rest _ _ _ _ hu.2.2.2) h3
  have h6 := (List.cons.inj h5).2
  obtain ⟨h7, h8⟩ := char_sep ',' (spinText_no _ _ (by decide) (by decide) (by decide)) (spinText_no _ _ (by decide) (by decide) (by decide)) h6
  obtain ⟨h9, h10⟩ := char_sep ']' (spinText_no _ _ (by decide) (by decide) (by decide)) (spinText_no _ _ (by decide) (by decide) (by decide)) h8
  obtain ⟨s2, h11⟩ := dText_decode t.d2 u.d2 ht.2.2.2 hu.2.2.2 _ _ (.inl ⟨x, rfl⟩) (.inl ⟨y, rfl⟩) h10
  exact ⟨⟨q1, q2, q3, spinText_inj h7, spinText_inj h9, s1, s2⟩, (List.cons.inj h11).2⟩

/-! ### the same wave has the same name -/

theorem sanitize_congr {a b : Name} (h : SameName a b) : sanitize a = sanitize b := (sanitize_eq_iff a b).2 h

theorem labelBase_congr (d : MassDep) (p q : WaveParticle) (hd : d ≠ .none ∧ d ≠ .relativisticBreitWigner) : labelBase d p = labelBase d q := by
  unfold labelBase
  split
  · exact absurd rfl hd.1
  · exact absurd rfl hd.2
  all_goals exact Eq.refl _

theorem label_congr {d e : MassDep} {p q : WaveParticle} (h : SameIsobar d p e q) : labelBase d p = labelBase e q ∧ labelIn d p = labelIn e q := by
  induction h with
  | @bw d d' p p' h1 h2 h3 =>
    have hs := sanitize_congr h3
    have hb : ∀ d p, d = MassDep.none ∨ d = MassDep.relativisticBreitWigner → labelBase d p = sanitize p.name ∧ labelIn d p = none := by
      rintro d p (rfl | rfl) <;> exact ⟨rfl, rfl⟩
    rw [(hb d p h1).1, (hb d' p' h2).1, (hb d p h1).2, (hb d' p' h2).2]
    exact ⟨hs, rfl⟩
  | flat h => exact ⟨labelBase_congr _ _ _ (by simp), by simp only [labelIn, qnText_congr h]⟩
  | binned h => exact ⟨labelBase_congr _ _ _ (by simp), by simp only [labelIn, qnText_congr h]⟩
  | glass h1 h2 => exact ⟨congrArg (fun s => "KPiSGLASS".toList ++ '<' :: (s ++ ['>'])) (sanitize_congr h1), by simp only [labelIn, sanitize_congr h2]⟩
  | palano h => exact ⟨labelBase_congr _ _ _ (by simp), by simp only [labelIn, sanitize_congr h]⟩
  | plain h => exact ⟨labelBase_congr _ _ _ (by simp), by simp only [labelIn, sanitize_congr h]⟩

theorem dText_congr {d e : Decay} (h : SameDecay d e) : dText d = dText e := by
  induction h with
  | fs h => exact (sanitize_eq_iff _ _).2 h
  | iso hi _ _ ih1 ih2 =>
    obtain ⟨h1, h2⟩ := label_congr hi
    unfold dText
    rw [h1, h2, ih1, ih2]

/-- **C47** a wave name identifies the wave: two decay topologies get the same name exactly if X has the same quantum numbers, spin
projection, and reflectivity, and the decay chains consist of the same isobars and final-state particles with the same orbital
angular momenta and spins. -/
theorem waveName_identifies {t u : WaveTopology} (ht : GoodTopology t) (hu : GoodTopology u) :
    waveNameFromTopology t = waveNameFromTopology u ↔ SameWave t u := by
  constructor
  · intro h
    exact (waveName_decode ht hu (x := []) (y := []) (by rw [h])).1
  · rintro ⟨⟨a1, a2, a3, a4, a5⟩, b, c, d, e, f, g⟩
    rw [waveName_eq t ht, waveName_eq u hu]
    unfold headerText bodyText
    rw [a1, a2, a3, a4, a5, b, c, d, e, dText_congr f, dText_congr g]

/-- **C47** the name of a wave is found in the name of a production amplitude (any text without brackets in front of a wave name) only
if the two are the same wave. -/
theorem waveName_not_in_other {t u : WaveTopology} (ht : GoodTopology t) (hu : GoodTopology u) {pre : Name} (hpre : '[' ∉ pre)
    (h : waveNameFromTopology t <:+: pre ++ waveNameFromTopology u) : SameWave t u ∧ waveNameFromTopology t = waveNameFromTopology u := by
  obtain ⟨a, b, hab⟩ := h
  have hl : ∀ t, GoodTopology t → ∀ b, HeaderLike (waveNameFromTopology t ++ b) := by
    intro t ht b
    refine ⟨headerText t, bodyText t ++ b, ?_, (clean_nb (headerText_clean t)).1, (clean_nb (headerText_clean t)).2, headerText_count t⟩
    rw [waveName_eq t ht]; simp only [List.append_assoc, List.cons_append]
  have h1 : waveNameFromTopology t ++ b <:+ pre ++ waveNameFromTopology u := ⟨a, by rw [← hab, List.append_assoc]⟩
  have h2 := suffix_skip hpre (hl t ht b) h1
  have hend : ∀ s, HeaderLike s → ¬ s <:+ [] := by
    rintro s ⟨h, x, rfl, -⟩ hs
    simp at hs
  have h3 : waveNameFromTopology t ++ b = waveNameFromTopology u := by
    rw [waveName_eq u hu, List.suffix_cons_iff] at h2
    rcases h2 with h2 | h2
    · rw [waveName_eq u hu]; exact h2
    · exfalso
      have h3 := suffix_skip (clean_nb (headerText_clean u)).1 (hl t ht b) h2
      -- inside of the decay: read it as the decay of an isobar called X
      let p : WaveParticle := ⟨['X'], 0, 0, 0, 1, 0, 0, 0⟩
      have hp : GoodName p.name ∧ GoodQn p ∧ GoodMassDep .none := by
        refine ⟨⟨by simp [p], ?_⟩, ⟨.inl rfl, .inl rfl, .inl rfl⟩, trivial⟩
        intro c hc
        have : c = 'X' := by simpa [p] using hc
        subst this
        unfold NameChar; decide
      have h4 := suffix_skip (a := [']']) (by decide) (hl t ht b) h3
      have h5 : waveNameFromTopology t ++ b <:+ dText (.iso p .none u.L u.S u.d1 u.d2) ++ [] := by
        refine h4.trans ?_
        rw [List.append_nil]
        exact List.suffix_append _ _
      exact hend _ (hl t ht b) (suffix_decay (.iso p .none u.L u.S u.d1 u.d2) ⟨hp.1, hp.2.1, hp.2.2, hu.2.2⟩ _ _ (hl t ht b) h5)
  have h4 := waveName_decode ht hu (x := b) (y := []) (by rw [h3, List.append_nil])
  have hb := h4.2
  rw [hb, List.append_nil] at h3
  exact ⟨h4.1, h3⟩

/-! ### generated names in fit results -/

theorem plain_of_chars {s : Name} (L : List Char) (hL : ∀ c ∈ L, PlainChar c) (h : ∀ c ∈ s, c.isDigit = true ∨ c ∈ L) : ∀ c ∈ s, PlainChar c := by
  intro c hc
  rcases h c hc with h | h
  · unfold PlainChar
    intro hm
    simp only [List.mem_cons, List.not_mem_nil, or_false] at hm
    rcases hm with rfl | rfl | rfl | rfl | rfl | rfl <;> exact absurd h (by decide)
  · exact hL c h

theorem plain_dec (s : Name) (h : (s.all fun c => !(['\\', '|', '(', ')', '{', Char.ofNat 0].contains c)) = true) : ∀ c ∈ s, PlainChar c := by
  intro c hc
  have := List.all_eq_true.1 h c hc
  unfold PlainChar
  intro hm
  rw [List.contains_iff_mem.2 hm] at this
  exact absurd this (by decide)

theorem plain_append {a b : Name} (ha : ∀ c ∈ a, PlainChar c) (hb : ∀ c ∈ b, PlainChar c) : ∀ c ∈ a ++ b, PlainChar c := by
  intro c hc
  rcases List.mem_append.1 hc with h | h
  · exact ha c h
  · exact hb c h

theorem plain_cons {d : Char} {b : Name} (ha : PlainChar d) (hb : ∀ c ∈ b, PlainChar c) : ∀ c ∈ d :: b, PlainChar c := by
  intro c hc
  rcases List.mem_cons.1 hc with h | h
  · rw [h]; exact ha
  · exact hb c h

theorem plain_sanitize {s : Name} (h : ∀ c ∈ s, NameChar c) : ∀ c ∈ sanitize s, PlainChar c := by
  intro c hc hm
  have hp := sanitize_chars s c hc
  simp only [List.mem_cons, List.not_mem_nil, or_false] at hm
  rcases mem_sanitize hc with h' | h'
  · have := h c h'
    simp only [NameChar, List.mem_cons, List.not_mem_nil, or_false, not_or] at this
    obtain ⟨-, -, -, -, a, b, d, e⟩ := this
    rcases hm with hm | hm | hm | hm | hm | hm
    · exact a hm
    · exact b hm
    · exact hp.1 hm
    · exact hp.2 hm
    · exact d hm
    · exact e hm
  · rw [h'] at hm
    exact absurd hm (by decide)

theorem plain_spin (q : ℤ) : ∀ c ∈ spinText q, PlainChar c :=
  plain_of_chars ['-', '.'] (plain_dec _ (by decide)) (fun c hc => by
    rcases spinText_chars q c hc with h | h | h
    · exact .inl h
    · right; rw [h]; simp
    · right; rw [h]; simp)

theorem plain_parity (q : ℤ) : ∀ c ∈ parityText q, PlainChar c := fun c hc => by
  rcases parityText_chars q c hc with h | h <;> rw [h] <;> unfold PlainChar <;> decide

theorem plain_qn (p : WaveParticle) : ∀ c ∈ qnText p, PlainChar c := plain_of_chars _ (plain_dec _ (by decide)) (qnText_chars p)

theorem plain_number {s : Name} (h : NumberText s) : ∀ c ∈ s, PlainChar c := plain_of_chars _ (plain_dec _ (by decide)) h

theorem plain_base {d : MassDep} {p : WaveParticle} (hd : GoodMassDep d) (hp : GoodName p.name) : ∀ c ∈ labelBase d p, PlainChar c := by
  cases d with
  | none => exact plain_sanitize hp.2
  | relativisticBreitWigner => exact plain_sanitize hp.2
  | flat => exact plain_dec "flat".toList (by decide +kernel)
  | binned lo hi => exact plain_dec "binned".toList (by decide +kernel)
  | glass tag =>
    exact plain_append (plain_dec _ (by decide +kernel)) (plain_cons (by unfold PlainChar; decide)
      (plain_append (plain_sanitize hd) (plain_dec _ (by decide))))
  | palano m =>
    exact plain_append (plain_dec _ (by decide +kernel)) (plain_append (plain_dec _ (by decide +kernel))
      (plain_append (plain_number hd) (plain_dec _ (by decide +kernel))))
  | plain d => exact plain_dec d.cName (by cases d <;> decide +kernel)

theorem plain_bracket {d : MassDep} {p : WaveParticle} (hd : GoodMassDep d) (hp : GoodName p.name) : ∀ c ∈ bracket (labelIn d p), PlainChar c := by
  have hb : ∀ s : Name, (∀ c ∈ s, PlainChar c) → ∀ c ∈ bracket (some s), PlainChar c := fun s hs =>
    plain_cons (by unfold PlainChar; decide) (plain_append hs (plain_dec _ (by decide)))
  cases d with
  | none => simp [labelIn, bracket]
  | relativisticBreitWigner => simp [labelIn, bracket]
  | flat => exact hb _ (plain_qn p)
  | binned lo hi =>
    exact hb _ (plain_append (plain_qn p) (plain_cons (by unfold PlainChar; decide) (plain_append (plain_number hd.1)
      (plain_cons (by unfold PlainChar; decide) (plain_number hd.2)))))
  | glass tag => exact hb _ (plain_sanitize hp.2)
  | palano m => exact hb _ (plain_sanitize hp.2)
  | plain d => exact hb _ (plain_sanitize hp.2)

theorem plain_dText : ∀ d : Decay, GoodDecay d → ∀ c ∈ dText d, PlainChar c
  | .fs n, h => plain_sanitize h.2
  | .iso p d L S d1 d2, h => by
    have pc : ∀ c ∈ ['=', '[', ']', ','], PlainChar c := plain_dec _ (by decide)
    unfold dText
    exact plain_append (plain_base h.2.2.1 h.1) (plain_append (plain_bracket h.2.2.1 h.1) (plain_cons (pc _ (by simp)) (plain_cons (pc _ (by simp))
      (plain_append (plain_dText d1 h.2.2.2.1) (plain_cons (pc _ (by simp)) (plain_append (plain_spin L) (plain_cons (pc _ (by simp))
      (plain_append (plain_spin S) (plain_cons (pc _ (by simp)) (plain_append (plain_dText d2 h.2.2.2.2) (plain_dec _ (by decide))))))))))))

/-- a generated name with reflectivity ±1 is a wave name in the convention the fit uses; its reflectivity is the one of X. -/
theorem waveName_waveId (t : WaveTopology) (ht : GoodTopology t) (hr : t.X.reflectivity ≠ 0) :
    ∃ w : WaveId, w.Good ∧ w.text = waveNameFromTopology t ∧ (Wave.pw w).refl = t.X.reflectivity := by
  refine ⟨⟨spinText t.X.isospin ++ parityText t.X.G, spinText t.X.J ++ parityText t.X.P ++ parityText t.X.C, spinText t.X.spinProj,
    decide (0 < t.X.reflectivity), bodyText t⟩, ?_, ?_, ?_⟩
  · have htext : ∀ c ∈ waveNameFromTopology t, PlainChar c := by
      have pc : ∀ c ∈ ['=', '[', ']', ','], PlainChar c := plain_dec _ (by decide)
      rw [waveName_eq t ht]
      unfold headerText bodyText
      exact plain_cons (pc _ (by simp)) (plain_append (plain_append (plain_append (plain_spin _) (plain_parity _)) (plain_cons (pc _ (by simp))
        (plain_append (plain_append (plain_append (plain_spin _) (plain_parity _)) (plain_parity _)) (plain_cons (pc _ (by simp))
        (plain_append (plain_spin _) (plain_parity _)))))) (plain_cons (pc _ (by simp)) (plain_cons (pc _ (by simp)) (plain_cons (pc _ (by simp))
        (plain_append (plain_dText _ ht.2.2.1) (plain_cons (pc _ (by simp)) (plain_append (plain_spin _) (plain_cons (pc _ (by simp))
        (plain_append (plain_spin _) (plain_cons (pc _ (by simp)) (plain_append (plain_dText _ ht.2.2.2) (plain_dec _ (by decide)))))))))))))
    refine ⟨?_, ?_, ?_, ?_, ?_⟩
    · intro c hc
      constructor
      · rintro rfl; exact spinParity_no _ _ _ (by decide) (by decide) (by decide) (by decide) hc
      · rintro rfl; exact spinParity_no _ _ _ (by decide) (by decide) (by decide) (by decide) hc
    · intro c hc
      constructor
      · rintro rfl; exact jpc_no _ _ _ _ (by decide) (by decide) (by decide) (by decide) hc
      · rintro rfl; exact jpc_no _ _ _ _ (by decide) (by decide) (by decide) (by decide) hc
    · intro c hc
      constructor
      · rintro rfl; exact spinText_no _ _ (by decide) (by decide) (by decide) hc
      · rintro rfl; exact spinText_no _ _ (by decide) (by decide) (by decide) hc
    · obtain ⟨s, c, h, -⟩ := spinText_last t.X.spinProj
      show spinText _ ≠ []
      rw [h]; simp
    · intro c hc
      refine htext c ?_
      revert hc
      refine Eq.subst (motive := fun n => c ∈ n → c ∈ waveNameFromTopology t) (a := waveNameFromTopology t) ?_ id
      rw [waveName_eq t ht]
      unfold headerText WaveId.text
      rcases ht.2.1 with h | h | h
      · exact absurd h hr
      · rw [h]; simp [parityText]
      · rw [h]; simp [parityText]
  · rw [waveName_eq t ht]
    unfold headerText WaveId.text
    rcases ht.2.1 with h | h | h
    · exact absurd h hr
    · rw [h]; simp [parityText]
    · rw [h]; simp [parityText]
  · rcases ht.2.1 with h | h | h
    · exact absurd h hr
    · rw [h]; simp [Wave.refl]
    · rw [h]; simp [Wave.refl]

/-- **C47** (with C30) a fit result whose waves have generated names is `Labelled`: no wave name is found in the name of an amplitude of
another wave.  Excluded is the case that a wave name contains `flat` while there is a flat wave. -/
theorem labelled_of_generated {r : FitResult} {labels : List Label} (names : r.prodAmpNames = labels.map Label.text) (count : r.nmbProdAmps = labels.length)
    (nodup : labels.Nodup) (flat : ∀ l ∈ labels, l.wave = .flat → l.rank = 0) (waves : ∀ n ∈ r.waveNames, ∃ l ∈ labels, l.wave.text = n)
    (gen : ∀ l ∈ labels, ∀ w, l.wave = .pw w → w.Good ∧ ∃ t, GoodTopology t ∧ w.text = waveNameFromTopology t)
    (noFlat : ∀ l ∈ labels, l.wave = .flat → ∀ l' ∈ labels, ∀ w, l'.wave = .pw w → ¬ "flat".toList <:+: l'.text) : Labelled r labels where
  names := names
  count := count
  nodup := nodup
  flat := flat
  good := fun l hl w hw => (gen l hl w hw).1
  waves := waves
  separate := by
    intro l hl l' hl' h
    cases hw' : l'.wave with
    | flat =>
      cases hw : l.wave with
      | flat => rfl
      | pw w =>
        exfalso
        have ht' : l'.text = "V_flat".toList := by unfold Label.text; rw [hw']
        rw [hw, ht'] at h
        have hb : '[' ∈ "V_flat".toList := h.subset (by show '[' ∈ w.text; unfold WaveId.text; exact List.mem_cons_self)
        exact absurd hb (by decide +kernel)
    | pw w' =>
      cases hw : l.wave with
      | flat =>
        rw [hw] at h
        exact absurd h (noFlat l hl hw l' hl' w' hw')
      | pw w =>
        obtain ⟨g, t, ht, e⟩ := gen l hl w hw
        obtain ⟨g', t', ht', e'⟩ := gen l' hl' w' hw'
        have htx : l'.text = ('V' :: ((Nat.repr l'.rank).toList ++ ['_'])) ++ w'.text := by
          unfold Label.text; rw [hw']; simp
        rw [hw, htx, e'] at h
        change w.text <:+: _ at h
        rw [e] at h
        have hpre : '[' ∉ 'V' :: ((Nat.repr l'.rank).toList ++ ['_']) := by
          intro hm
          rcases List.mem_cons.1 hm with hm | hm
          · exact absurd hm (by decide)
          · rcases List.mem_append.1 hm with hm | hm
            · exact absurd (repr_isDigit _ _ hm) (by decide)
            · exact absurd hm (by decide)
        have := (waveName_not_in_other ht ht' hpre h).2
        rw [← e, ← e'] at this
        rw [waveId_text_inj g g' this]

/-! ### examples -/

def exRho : WaveParticle := ⟨"rho(770)0".toList, 2, 1, 2, -1, -1, 0, 0⟩
def exF0 : WaveParticle := ⟨"f0(980)0".toList, 0, 1, 0, 1, 1, 0, 0⟩

def exTopo : WaveTopology where
  X := ⟨"X".toList, 2, -1, 2, 1, 1, 0, 1⟩
  L := 0
  S := 2
  d1 := .iso exRho .relativisticBreitWigner 2 0 (.fs "pi-".toList) (.fs "pi+".toList)
  d2 := .fs "pi-".toList

/-- the same decay through a flat `0+[0++]` isobar. -/
def exTopoFlat : WaveTopology where
  X := ⟨"X".toList, 2, -1, 0, -1, 1, 0, 1⟩
  L := 0
  S := 0
  d1 := .iso exF0 .flat 0 0 (.fs "pi-".toList) (.fs "pi+".toList)
  d2 := .fs "pi-".toList

example : waveNameFromTopology exTopo = "[1-,1++,0+]=[rho_770_0=[pi-[1,0]pi+][0,1]pi-]".toList := by decide +kernel

theorem exTopo_flat_name : waveNameFromTopology exTopoFlat = "[1-,0-+,0+]=[flat[0+,0++]=[pi-[0,0]pi+][0,0]pi-]".toList := by decide +kernel

theorem exTopo_good : GoodTopology exTopo ∧ GoodTopology exTopoFlat := by
  have h1 : GoodName "pi-".toList := by unfold GoodName NameChar; decide +kernel
  have h2 : GoodName "pi+".toList := by unfold GoodName NameChar; decide +kernel
  have h3 : GoodName exRho.name := by unfold GoodName NameChar; decide +kernel
  have h4 : GoodName exF0.name := by unfold GoodName NameChar; decide +kernel
  have i1 : GoodQn exRho := by unfold GoodQn; decide
  have i2 : GoodQn exF0 := by unfold GoodQn; decide
  have i3 : GoodQn exTopo.X := by unfold GoodQn; decide
  have i4 : GoodQn exTopoFlat.X := by unfold GoodQn; decide
  have mk : ∀ p d L S d1 d2, GoodName p.name → GoodQn p → GoodMassDep d → GoodDecay d1 → GoodDecay d2 → GoodDecay (.iso p d L S d1 d2) :=
    fun _ _ _ _ _ _ a b c d e => ⟨a, b, c, d, e⟩
  have mkFs : ∀ n, GoodName n → GoodDecay (.fs n) := fun _ h => h
  constructor
  · refine ⟨i3, .inr (.inl rfl), ?_, ?_⟩
    · exact mk _ _ _ _ _ _ h3 i1 (by unfold GoodMassDep; trivial) (mkFs _ h1) (mkFs _ h2)
    · exact mkFs _ h1
  · refine ⟨i4, .inr (.inl rfl), ?_, ?_⟩
    · exact mk _ _ _ _ _ _ h4 i2 (by unfold GoodMassDep; trivial) (mkFs _ h1) (mkFs _ h2)
    · exact mkFs _ h1

/-- the two example waves are different waves, neither name is found in an amplitude name of the other. -/
example : ¬ waveNameFromTopology exTopo <:+: "V0_".toList ++ waveNameFromTopology exTopoFlat := by
  intro h
  have h4 : (2 : ℤ) = 0 := (waveName_not_in_other exTopo_good.1 exTopo_good.2 (by decide +kernel) h).1.1.2.2.1
  exact absurd h4 (by decide)

/-- the excluded case exists: the name of the flat wave is found in the amplitude names of a wave with a flat isobar (so that the
spin-density elements of the flat wave pick up the wrong amplitudes). -/
theorem flat_in_waveName : (Wave.flat).text <:+: 'V' :: '0' :: '_' :: waveNameFromTopology exTopoFlat := by
  rw [exTopo_flat_name, ← hasSub_iff]
  decide +kernel

/-- without a parity of X the name is ambiguous: `P = 0, C = +` and `P = +, C` undefined look the same. -/
theorem waveName_needs_parity : ∃ t u : WaveTopology, ¬ SameWave t u ∧ waveNameFromTopology t = waveNameFromTopology u := by
  refine ⟨{ exTopo with X := ⟨"X".toList, 2, -1, 2, 0, 1, 0, 1⟩ }, { exTopo with X := ⟨"X".toList, 2, -1, 2, 1, 0, 0, 1⟩ }, ?_, by decide +kernel⟩
  intro h
  have h4 : (0 : ℤ) = 1 := h.1.2.2.2.1
  exact absurd h4 (by decide)

end Rpwa.Fit
