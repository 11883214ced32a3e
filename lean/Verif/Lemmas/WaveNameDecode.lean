import Verif.Lemmas.WaveName
/-! # Wave names can be decoded -/
namespace Rpwa.Fit

/-! ### labels of isobars -/

/-- text before the bracket. -/
def labelBase (d : MassDep) (p : WaveParticle) : Name :=
  match d with
  | .none => sanitize p.name
  | .relativisticBreitWigner => sanitize p.name
  | .flat => "flat".toList
  | .binned _ _ => "binned".toList
  | .glass tag => "KPiSGLASS".toList ++ '<' :: (sanitize tag ++ ['>'])
  | .palano m => "KPiSPalanoPennington".toList ++ ("<MMax_".toList ++ (m ++ "GeV>".toList))
  | .plain d => d.cName

/-- text in the bracket. -/
def labelIn (d : MassDep) (p : WaveParticle) : Option Name :=
  match d with
  | .none => Option.none
  | .relativisticBreitWigner => Option.none
  | .flat => some (qnText p)
  | .binned lo hi => some (qnText p ++ ',' :: (lo ++ ',' :: hi))
  | _ => some (sanitize p.name)

def bracket : Option Name → Name
  | none => []
  | some s => '[' :: (s ++ [']'])

theorem no_paren_of_chars {s : Name} (L : List Char) (hL : '(' ∉ L ∧ ')' ∉ L) (h : ∀ c ∈ s, c.isDigit = true ∨ c ∈ L) : ∀ c ∈ s, c ≠ '(' ∧ c ≠ ')' := by
  intro c hc
  constructor
  · rintro rfl
    rcases h _ hc with h | h
    · exact absurd h (by decide)
    · exact hL.1 h
  · rintro rfl
    rcases h _ hc with h | h
    · exact absurd h (by decide)
    · exact hL.2 h

theorem sanitize_qnText (p : WaveParticle) : sanitize (qnText p) = qnText p :=
  sanitize_self _ (no_paren_of_chars _ (by decide) (qnText_chars p))

theorem sanitize_spinText (q : ℤ) : sanitize (spinText q) = spinText q :=
  sanitize_self _ (no_paren_of_chars ['-', '.'] (by decide) (fun c hc => by
    rcases spinText_chars q c hc with h | h | h
    · exact .inl h
    · right; rw [h]; simp
    · right; rw [h]; simp))

theorem sanitize_number {s : Name} (h : NumberText s) : sanitize s = s := sanitize_self _ (no_paren_of_chars _ (by decide) h)

theorem sanitize_parityText (q : ℤ) : sanitize (parityText q) = parityText q :=
  sanitize_self _ (fun c hc => by rcases parityText_chars q c hc with h | h <;> rw [h] <;> decide)

theorem sanitize_cName (d : PlainMassDep) : sanitize d.cName = d.cName := by cases d <;> decide +kernel

theorem sanitize_label (d : MassDep) (p : WaveParticle) (hd : GoodMassDep d) :
    sanitize (parentLabel d p) = labelBase d p ++ bracket (labelIn d p) := by
  have hb : ∀ s : Name, sanitize (s ++ [']']) = sanitize s ++ [']'] := fun s => by
    rw [sanitize_append]; exact congrArg _ (by decide +kernel)
  have hl : ∀ s : Name, sanitize ('[' :: s) = '[' :: sanitize s := fun s => sanitize_cons _ _ (by decide) (by decide)
  have hc : ∀ s : Name, sanitize (',' :: s) = ',' :: sanitize s := fun s => sanitize_cons _ _ (by decide) (by decide)
  have h1 : ∀ s : Name, sanitize ('<' :: s) = '<' :: sanitize s := fun s => sanitize_cons _ _ (by decide) (by decide)
  have h2 : ∀ s : Name, sanitize ('>' :: s) = '>' :: sanitize s := fun s => sanitize_cons _ _ (by decide) (by decide)
  cases d with
  | none => exact (List.append_nil _).symm
  | relativisticBreitWigner => exact (List.append_nil _).symm
  | flat =>
    unfold parentLabel labelBase labelIn bracket
    simp only
    rw [sanitize_append, hl, hb, sanitize_qnText, show sanitize "flat".toList = "flat".toList from by decide +kernel]
  | binned lo hi =>
    unfold parentLabel labelBase labelIn bracket
    simp only
    rw [sanitize_append, hl, sanitize_append, hc, sanitize_append, hc, hb, sanitize_qnText, sanitize_number hd.1, sanitize_number hd.2,
      show sanitize "binned".toList = "binned".toList from by decide +kernel]
    simp only [List.append_assoc, List.cons_append]
  | glass tag =>
    unfold parentLabel labelBase labelIn bracket
    simp only
    rw [sanitize_append, h1, sanitize_append, h2, hl, hb, show sanitize "KPiSGLASS".toList = "KPiSGLASS".toList from by decide +kernel]
    simp only [List.append_assoc, List.cons_append, List.nil_append]
  | palano m =>
    unfold parentLabel labelBase labelIn bracket
    simp only
    rw [sanitize_append, sanitize_append, sanitize_append, sanitize_append, hl, hb, sanitize_number hd,
      show sanitize "KPiSPalanoPennington".toList = "KPiSPalanoPennington".toList from by decide +kernel,
      show sanitize "<MMax_".toList = "<MMax_".toList from by decide +kernel, show sanitize "GeV>".toList = "GeV>".toList from by decide +kernel]
    simp only [List.append_assoc]
  | plain d =>
    unfold parentLabel labelBase labelIn bracket
    simp only
    rw [sanitize_append, hl, hb, sanitize_cName]

/-- characters that do not occur in names. -/
def Clean (s : Name) : Prop := ∀ c ∈ s, c ≠ '[' ∧ c ≠ ']' ∧ c ≠ '='

theorem Clean.append {a b : Name} (ha : Clean a) (hb : Clean b) : Clean (a ++ b) := by
  intro c hc
  rcases List.mem_append.1 hc with h | h
  · exact ha c h
  · exact hb c h

theorem clean_sanitize {s : Name} (h : ∀ c ∈ s, NameChar c) : Clean (sanitize s) := by
  intro c hc
  rcases mem_sanitize hc with h' | h'
  · have := h c h'
    simp only [NameChar, List.mem_cons, not_or] at this
    exact ⟨this.1, this.2.1, this.2.2.1⟩
  · rw [h']; decide

theorem clean_of_chars {s : Name} (L : List Char) (hL : '[' ∉ L ∧ ']' ∉ L ∧ '=' ∉ L) (h : ∀ c ∈ s, c.isDigit = true ∨ c ∈ L) : Clean s := by
  intro c hc
  refine ⟨?_, ?_, ?_⟩ <;>
  · rintro rfl
    rcases h _ hc with h | h
    · exact absurd h (by decide)
    · first | exact hL.1 h | exact hL.2.1 h | exact hL.2.2 h

theorem clean_number {s : Name} (h : NumberText s) : Clean s := clean_of_chars _ (by decide) h

theorem clean_qn (p : WaveParticle) : Clean (qnText p) := clean_of_chars _ (by decide) (qnText_chars p)

theorem clean_spin (q : ℤ) : Clean (spinText q) :=
  clean_of_chars ['-', '.'] (by decide) (fun c hc => by
    rcases spinText_chars q c hc with h | h | h
    · exact .inl h
    · right; rw [h]; simp
    · right; rw [h]; simp)

theorem clean_parity (q : ℤ) : Clean (parityText q) := fun c hc => by
  rcases parityText_chars q c hc with h | h <;> rw [h] <;> decide

theorem clean_cons {c : Char} {s : Name} (hc : c ≠ '[' ∧ c ≠ ']' ∧ c ≠ '=') (hs : Clean s) : Clean (c :: s) := by
  intro d hd
  rcases List.mem_cons.1 hd with h | h
  · rw [h]; exact hc
  · exact hs d h

theorem clean_dec (s : Name) (h : (s.all fun c => c != '[' && c != ']' && c != '=') = true) : Clean s := by
  intro c hc
  have := List.all_eq_true.1 h c hc
  simpa [and_assoc] using this

theorem clean_base {d : MassDep} {p : WaveParticle} (hd : GoodMassDep d) (hp : GoodName p.name) : Clean (labelBase d p) := by
  cases d with
  | none => exact clean_sanitize hp.2
  | relativisticBreitWigner => exact clean_sanitize hp.2
  | flat => exact clean_dec "flat".toList (by decide +kernel)
  | binned lo hi => exact clean_dec "binned".toList (by decide +kernel)
  | glass tag =>
    exact (clean_dec _ (by decide +kernel)).append (clean_cons (by decide) ((clean_sanitize hd).append (clean_cons (by decide) (clean_dec _ (by decide)))))
  | palano m =>
    exact (clean_dec _ (by decide +kernel)).append ((clean_dec _ (by decide +kernel)).append ((clean_number hd).append (clean_dec _ (by decide +kernel))))
  | plain d => exact clean_dec d.cName (by cases d <;> decide +kernel)

theorem base_ne_nil {d : MassDep} {p : WaveParticle} (hp : GoodName p.name) : labelBase d p ≠ [] := by
  have hs : sanitize p.name ≠ [] := by
    rw [sanitize_eq]; simpa using hp.1
  cases d with
  | none => exact hs
  | relativisticBreitWigner => exact hs
  | flat => exact (by decide +kernel : "flat".toList ≠ [])
  | binned lo hi => exact (by decide +kernel : "binned".toList ≠ [])
  | glass tag => exact List.append_ne_nil_of_left_ne_nil (by decide +kernel) _
  | palano m => exact List.append_ne_nil_of_left_ne_nil (by decide +kernel) _
  | plain d => exact (by cases d <;> decide +kernel : d.cName ≠ [])

theorem clean_in {d : MassDep} {p : WaveParticle} (hd : GoodMassDep d) (hp : GoodName p.name) {s : Name} (h : labelIn d p = some s) : Clean s := by
  cases d with
  | none => simp [labelIn] at h
  | relativisticBreitWigner => simp [labelIn] at h
  | flat =>
    simp only [labelIn, Option.some.injEq] at h
    subst h; exact clean_qn p
  | binned lo hi =>
    simp only [labelIn, Option.some.injEq] at h
    subst h
    exact (clean_qn p).append (clean_cons (by decide) ((clean_number hd.1).append (clean_cons (by decide) (clean_number hd.2))))
  | glass tag =>
    simp only [labelIn, Option.some.injEq] at h
    subst h; exact clean_sanitize hp.2
  | palano m =>
    simp only [labelIn, Option.some.injEq] at h
    subst h; exact clean_sanitize hp.2
  | plain d =>
    simp only [labelIn, Option.some.injEq] at h
    subst h; exact clean_sanitize hp.2

theorem number_no_comma {s : Name} (h : NumberText s) : ',' ∉ s := by
  intro hc
  rcases h _ hc with h | h
  · exact absurd h (by decide)
  · exact absurd h (by decide)

/-- no bracket of a label has exactly two commas. -/
theorem in_count {d : MassDep} {p : WaveParticle} (hd : GoodMassDep d) (hp : GoodName p.name) {s : Name} (h : labelIn d p = some s) : s.count ',' ≠ 2 := by
  have hn : (sanitize p.name).count ',' ≠ 2 := by
    rw [List.count_eq_zero_of_not_mem (not_mem_sanitize (fun hc => by
      have := hp.2 _ hc
      exact this (by decide)) (by decide))]
    decide
  cases d with
  | none => simp [labelIn] at h
  | relativisticBreitWigner => simp [labelIn] at h
  | flat =>
    simp only [labelIn, Option.some.injEq] at h
    subst h; rw [qnText_count]; decide
  | binned lo hi =>
    simp only [labelIn, Option.some.injEq] at h
    subst h
    rw [List.count_append, List.count_cons_self, List.count_append, List.count_cons_self, qnText_count,
      List.count_eq_zero_of_not_mem (number_no_comma hd.1), List.count_eq_zero_of_not_mem (number_no_comma hd.2)]
    decide
  | glass tag =>
    simp only [labelIn, Option.some.injEq] at h
    subst h; exact hn
  | palano m =>
    simp only [labelIn, Option.some.injEq] at h
    subst h; exact hn
  | plain d =>
    simp only [labelIn, Option.some.injEq] at h
    subst h; exact hn

/-! labels are told apart by base and bracket -/

theorem cName_inj {d e : PlainMassDep} (h : d.cName = e.cName) : d = e := by
  cases d <;> cases e <;> first | rfl | (exact absurd h (by decide +kernel))

theorem cName_head (d : PlainMassDep) : d.cName.head? ≠ some 'K' ∧ d.cName ≠ "flat".toList ∧ d.cName ≠ "binned".toList := by
  cases d <;> decide +kernel

theorem glass_ne_palano (x y : Name) : "KPiSGLASS".toList ++ x ≠ "KPiSPalanoPennington".toList ++ y := by
  intro h
  have := congrArg (fun l : Name => l[4]?) h
  rw [List.getElem?_append_left (by decide +kernel), List.getElem?_append_left (by decide +kernel)] at this
  exact absurd this (by decide +kernel)

theorem head_glass (x : Name) : ("KPiSGLASS".toList ++ x).head? = some 'K' := by
  rw [List.head?_append]; rw [show "KPiSGLASS".toList.head? = some 'K' from by decide +kernel]; rfl

theorem head_palano (x : Name) : ("KPiSPalanoPennington".toList ++ x).head? = some 'K' := by
  rw [List.head?_append]; rw [show "KPiSPalanoPennington".toList.head? = some 'K' from by decide +kernel]; rfl

theorem sameIsobar_of_label {d e : MassDep} {p q : WaveParticle} (hd : GoodMassDep d) (he : GoodMassDep e) (hp : GoodQn p) (hq : GoodQn q)
    (hb : labelBase d p = labelBase e q) (hi : labelIn d p = labelIn e q) : SameIsobar d p e q := by
  have hflat : "flat".toList.head? ≠ some 'K' := by decide +kernel
  have hbin : "binned".toList.head? ≠ some 'K' := by decide +kernel
  have hfb : "flat".toList ≠ "binned".toList := by decide +kernel
  cases d with
  | none =>
    cases e <;> simp only [labelIn, reduceCtorEq] at hi
    · exact .bw (.inl rfl) (.inl rfl) ((sanitize_eq_iff _ _).1 hb)
    · exact .bw (.inl rfl) (.inr rfl) ((sanitize_eq_iff _ _).1 hb)
  | relativisticBreitWigner =>
    cases e <;> simp only [labelIn, reduceCtorEq] at hi
    · exact .bw (.inr rfl) (.inl rfl) ((sanitize_eq_iff _ _).1 hb)
    · exact .bw (.inr rfl) (.inr rfl) ((sanitize_eq_iff _ _).1 hb)
  | flat =>
    cases e with
    | none => simp [labelIn] at hi
    | relativisticBreitWigner => simp [labelIn] at hi
    | flat => exact .flat (qnText_inj_sep hp hq (Option.some.inj hi))
    | binned lo hi => exact absurd hb hfb
    | glass tag => exact absurd ((congrArg List.head? hb).trans (head_glass _)) hflat
    | palano m => exact absurd ((congrArg List.head? hb).trans (head_palano _)) hflat
    | plain e => exact absurd hb.symm (cName_head e).2.1
  | binned lo hi' =>
    cases e with
    | none => simp [labelIn] at hi
    | relativisticBreitWigner => simp [labelIn] at hi
    | flat => exact absurd hb.symm hfb
    | binned lo' hi'' =>
      have h := Option.some.inj hi
      have h' := congrArg List.reverse h
      simp only [List.reverse_append, List.reverse_cons, List.append_assoc, List.cons_append, List.nil_append] at h'
      obtain ⟨h1, h2⟩ := char_sep ',' (by simpa using number_no_comma hd.2) (by simpa using number_no_comma he.2) h'
      obtain ⟨h3, h4⟩ := char_sep ',' (by simpa using number_no_comma hd.1) (by simpa using number_no_comma he.1) h2
      have e1 := List.reverse_injective h1
      have e2 := List.reverse_injective h3
      subst e1 e2
      exact .binned (qnText_inj_sep hp hq (List.reverse_injective h4))
    | glass tag => exact absurd ((congrArg List.head? hb).trans (head_glass _)) hbin
    | palano m => exact absurd ((congrArg List.head? hb).trans (head_palano _)) hbin
    | plain e => exact absurd hb.symm (cName_head e).2.2
  | glass tag =>
    cases e with
    | none => simp [labelIn] at hi
    | relativisticBreitWigner => simp [labelIn] at hi
    | flat => exact absurd ((congrArg List.head? hb).symm.trans (head_glass _)) hflat
    | binned lo hi => exact absurd ((congrArg List.head? hb).symm.trans (head_glass _)) hbin
    | glass tag' =>
      have h := List.append_cancel_left hb
      have h2 := List.append_cancel_right (List.cons.inj h).2
      exact .glass ((sanitize_eq_iff _ _).1 h2) ((sanitize_eq_iff _ _).1 (Option.some.inj hi))
    | palano m => exact absurd hb (glass_ne_palano _ _)
    | plain e => exact absurd ((congrArg List.head? hb).symm.trans (head_glass _)) (cName_head e).1
  | palano m =>
    cases e with
    | none => simp [labelIn] at hi
    | relativisticBreitWigner => simp [labelIn] at hi
    | flat => exact absurd ((congrArg List.head? hb).symm.trans (head_palano _)) hflat
    | binned lo hi => exact absurd ((congrArg List.head? hb).symm.trans (head_palano _)) hbin
    | glass tag' => exact absurd hb.symm (glass_ne_palano _ _)
    | palano m' =>
      have h := List.append_cancel_right (List.append_cancel_left (List.append_cancel_left hb))
      subst h
      exact .palano ((sanitize_eq_iff _ _).1 (Option.some.inj hi))
    | plain e => exact absurd ((congrArg List.head? hb).symm.trans (head_palano _)) (cName_head e).1
  | plain d =>
    cases e with
    | none => simp [labelIn] at hi
    | relativisticBreitWigner => simp [labelIn] at hi
    | flat => exact absurd hb (cName_head d).2.1
    | binned lo hi => exact absurd hb (cName_head d).2.2
    | glass tag => exact absurd ((congrArg List.head? hb).trans (head_glass _)) (cName_head d).1
    | palano m => exact absurd ((congrArg List.head? hb).trans (head_palano _)) (cName_head d).1
    | plain e =>
      have h := cName_inj hb
      subst h
      exact .plain ((sanitize_eq_iff _ _).1 (Option.some.inj hi))

/-! ### texts of decays -/

/-- text of a daughter as it appears in the name. -/
def dText : Decay → Name
  | .fs n => sanitize n
  | .iso p d L S d1 d2 => labelBase d p ++ (bracket (labelIn d p) ++ '=' :: '[' :: (dText d1 ++ '[' :: (spinText L ++ ',' :: (spinText S ++ ']' :: (dText d2 ++ [']'])))))

theorem sanitize_daughter : ∀ d : Decay, GoodDecay d → sanitize (daughterName d) = dText d
  | .fs n, _ => rfl
  | .iso p d L S d1 d2, h => by
    have ih1 := sanitize_daughter d1 h.2.2.2.1
    have ih2 := sanitize_daughter d2 h.2.2.2.2
    unfold daughterName vertexName dText
    rw [sanitize_append, sanitize_idem, sanitize_label d p h.2.2.1]
    simp only [sanitize_append]
    rw [ih1, ih2, sanitize_spinText, sanitize_spinText]
    rw [show sanitize "=[".toList = ['=', '['] from by decide +kernel, show sanitize "[".toList = ['['] from by decide +kernel,
      show sanitize ",".toList = [','] from by decide +kernel, show sanitize "]".toList = [']'] from by decide +kernel]
    simp only [List.append_assoc, List.cons_append, List.nil_append]

/-- what may follow a daughter: the end of the vertex, or the `[L,S]` bracket and then another daughter. -/
def Rest (r : Name) : Prop :=
  (∃ r', r = ']' :: r') ∨ ∃ s c r', r = '[' :: (s ++ ']' :: c :: r') ∧ ']' ∉ s ∧ c ≠ '='

theorem dText_head (d : Decay) (h : GoodDecay d) : ∃ c s, dText d = c :: s ∧ c ≠ '=' ∧ c ≠ '[' ∧ c ≠ ']' := by
  have : ∃ b s, dText d = b ++ s ∧ b ≠ [] ∧ Clean b := by
    cases d with
    | fs n =>
      refine ⟨sanitize n, [], (List.append_nil _).symm, ?_, clean_sanitize h.2⟩
      rw [sanitize_eq]; simpa using h.1
    | iso p d L S d1 d2 => exact ⟨_, _, rfl, base_ne_nil h.1, clean_base h.2.2.1 h.1⟩
  obtain ⟨b, s, e, hb, hc⟩ := this
  cases b with
  | nil => exact absurd rfl hb
  | cons c b =>
    have := hc c List.mem_cons_self
    exact ⟨c, b ++ s, e, this.2.2, this.1, this.2.1⟩

theorem dText_decode : ∀ d e : Decay, GoodDecay d → GoodDecay e → ∀ r r' : Name, Rest r → Rest r' → dText d ++ r = dText e ++ r' →
    SameDecay d e ∧ r = r' := by
  -- cutting a clean text off
  have cut : ∀ {a b u v : Name}, Clean a → Clean b → (∃ c u', u = c :: u' ∧ (c = '[' ∨ c = ']' ∨ c = '=')) →
      (∃ c v', v = c :: v' ∧ (c = '[' ∨ c = ']' ∨ c = '=')) → a ++ u = b ++ v → a = b ∧ u = v := by
    intro a b u v ha hb hu hv e
    have hn : ∀ a : Name, Clean a → ∀ c ∈ a, ¬ (c = '[' ∨ c = ']' ∨ c = '=') := by
      intro a ha c hc h
      obtain ⟨h1, h2, h3⟩ := ha c hc
      rcases h with h | h | h
      · exact h1 h
      · exact h2 h
      · exact h3 h
    exact sep_inj (fun c => c = '[' ∨ c = ']' ∨ c = '=') (hn a ha) (hn b hb) hu hv e
  have restHead : ∀ r, Rest r → ∃ c u', r = c :: u' ∧ (c = '[' ∨ c = ']' ∨ c = '=') := by
    rintro r (⟨r', rfl⟩ | ⟨s, c, r', rfl, -⟩)
    · exact ⟨_, _, rfl, .inr (.inl rfl)⟩
    · exact ⟨_, _, rfl, .inl rfl⟩
  have brHead : ∀ (o : Option Name) (x : Name), ∃ c u', bracket o ++ '=' :: x = c :: u' ∧ (c = '[' ∨ c = ']' ∨ c = '=') := by
    intro o x
    cases o with
    | none => exact ⟨_, _, rfl, .inr (.inr rfl)⟩
    | some s => exact ⟨_, _, rfl, .inl rfl⟩
  -- a final-state particle is not an isobar
  have mixed : ∀ (o : Option Name) (x r : Name), (∀ s, o = some s → Clean s) → Rest r → bracket o ++ '=' :: x ≠ r := by
    intro o x r ho hr e
    cases o with
    | none =>
      rcases hr with ⟨r', rfl⟩ | ⟨s, c, r', rfl, -⟩ <;> exact absurd (List.cons.inj e).1 (by decide)
    | some s =>
      rcases hr with ⟨r', rfl⟩ | ⟨t, c, r', rfl, ht, hc⟩
      · exact absurd (List.cons.inj e).1 (by decide)
      · have e' := (List.cons.inj e).2
        replace e' : s ++ ']' :: '=' :: x = t ++ ']' :: c :: r' := (List.append_assoc s [']'] ('=' :: x)).symm.trans e'
        have hs : ']' ∉ s := fun h => (ho s rfl _ h).2.1 rfl
        obtain ⟨-, h2⟩ := char_sep ']' hs ht e'
        exact hc (List.cons.inj h2).1.symm
  intro d
  induction d with
  | fs n =>
    intro e hd he r r' hr hr' h
    cases e with
    | fs m =>
      obtain ⟨h1, h2⟩ := cut (clean_sanitize hd.2) (clean_sanitize he.2) (restHead r hr) (restHead r' hr') h
      exact ⟨.fs ((sanitize_eq_iff _ _).1 h1), h2⟩
    | iso p dd L S d1 d2 =>
      simp only [dText, List.append_assoc, List.cons_append] at h
      obtain ⟨-, h2⟩ := cut (clean_sanitize hd.2) (clean_base he.2.2.1 he.1) (restHead r hr) (brHead _ _) h
      exact absurd h2.symm (mixed _ _ _ (fun s hs => clean_in he.2.2.1 he.1 hs) hr)
  | iso p dd L S d1 d2 ih1 ih2 =>
    intro e hd he r r' hr hr' h
    cases e with
    | fs m =>
      simp only [dText, List.append_assoc, List.cons_append] at h
      obtain ⟨-, h2⟩ := cut (clean_base hd.2.2.1 hd.1) (clean_sanitize he.2) (brHead _ _) (restHead r' hr') h
      exact absurd h2 (mixed _ _ _ (fun s hs => clean_in hd.2.2.1 hd.1 hs) hr')
    | iso p' dd' L' S' e1 e2 =>
      simp only [dText, List.append_assoc, List.cons_append, List.nil_append] at h
      obtain ⟨hbase, h2⟩ := cut (clean_base hd.2.2.1 hd.1) (clean_base he.2.2.1 he.1) (brHead _ _) (brHead _ _) h
      have hin : labelIn dd p = labelIn dd' p' := by
          cases ho : labelIn dd p with
          | none =>
            cases ho' : labelIn dd' p' with
            | none => rfl
            | some s' =>
              rw [ho, ho'] at h2
              exact absurd (List.cons.inj h2).1 (by decide)
          | some s =>
            cases ho' : labelIn dd' p' with
            | none =>
              rw [ho, ho'] at h2
              exact absurd (List.cons.inj h2).1 (by decide)
            | some s' =>
              rw [ho, ho'] at h2
              have e' := (List.cons.inj h2).2
              replace e' := (List.append_assoc s [']'] _).symm.trans (e'.trans (List.append_assoc s' [']'] _))
              obtain ⟨h3, -⟩ := char_sep ']' (fun h => (clean_in hd.2.2.1 hd.1 ho _ h).2.1 rfl) (fun h => (clean_in he.2.2.1 he.1 ho' _ h).2.1 rfl) e'
              rw [h3]
      rw [hin] at h2
      have h3 := List.append_cancel_left h2
      have h4 := (List.cons.inj (List.cons.inj h3).2).2
      have rest : ∀ (L S : ℤ) (d2 : Decay) (x : Name), GoodDecay d2 → Rest ('[' :: (spinText L ++ ',' :: (spinText S ++ ']' :: (dText d2 ++ ']' :: x)))) := by
        intro L S d2 x hg
        obtain ⟨c, s, hc, hne, -⟩ := dText_head d2 hg
        refine .inr ⟨spinText L ++ ',' :: spinText S, c, s ++ ']' :: x, ?_, ?_, hne⟩
        · rw [hc]; simp only [List.append_assoc, List.cons_append]
        · intro hm
          rcases List.mem_append.1 hm with hm | hm
          · exact (clean_spin L _ hm).2.1 rfl
          · rcases List.mem_cons.1 hm with hm | hm
            · exact absurd hm (by decide)
            · exact (clean_spin S _ hm).2.1 rfl
      obtain ⟨s1, h5⟩ := ih1 e1 hd.2.2.2.1 he.2.2.2.1 _ _ (rest L S d2 r hd.2.2.2.2) (rest L' S' e2 r' he.2.2.2.2) h4
      have h6 := (List.cons.inj h5).2
      obtain ⟨h7, h8⟩ := char_sep ',' (spinText_no L _ (by decide) (by decide) (by decide)) (spinText_no L' _ (by decide) (by decide) (by decide)) h6
      obtain ⟨h9, h10⟩ := char_sep ']' (spinText_no S _ (by decide) (by decide) (by decide)) (spinText_no S' _ (by decide) (by decide) (by decide)) h8
      obtain ⟨s2, h11⟩ := ih2 e2 hd.2.2.2.2 he.2.2.2.2 _ _ (.inl ⟨r, rfl⟩) (.inl ⟨r', rfl⟩) h10
      have hL := spinText_inj h7
      have hS := spinText_inj h9
      subst hL hS
      exact ⟨.iso (sameIsobar_of_label hd.2.2.1 he.2.2.1 hd.2.1 he.2.1 hbase hin) s1 s2, (List.cons.inj h11).2⟩

/-! ### header-like brackets -/

/-- a text that starts with a bracket with exactly two commas and no bracket inside. -/
def HeaderLike (s : Name) : Prop := ∃ h x, s = '[' :: (h ++ ']' :: x) ∧ '[' ∉ h ∧ ']' ∉ h ∧ h.count ',' = 2

theorem suffix_skip {a r s : Name} (ha : '[' ∉ a) (hs : HeaderLike s) (h : s <:+ a ++ r) : s <:+ r := by
  induction a with
  | nil => exact h
  | cons c a ih =>
    rw [List.cons_append, List.suffix_cons_iff] at h
    rcases h with h | h
    · obtain ⟨u, x, rfl, -⟩ := hs
      exact absurd ((List.cons.inj h).1 ▸ List.mem_cons_self) ha
    · exact ih (fun hm => ha (List.mem_cons_of_mem _ hm)) h

theorem clean_nb {s : Name} (h : Clean s) : '[' ∉ s ∧ ']' ∉ s := ⟨fun hm => (h _ hm).1 rfl, fun hm => (h _ hm).2.1 rfl⟩

/-- a bracket with clean text and another number of commas is skipped. -/
theorem suffix_skip_bracket {a r s : Name} (ha : Clean a) (hc : a.count ',' ≠ 2) (hs : HeaderLike s) (h : s <:+ '[' :: (a ++ ']' :: r)) : s <:+ r := by
  rw [List.suffix_cons_iff] at h
  rcases h with h | h
  · obtain ⟨u, x, rfl, -, hu, hcu⟩ := hs
    have e := (List.cons.inj h).2
    obtain ⟨h1, -⟩ := char_sep ']' hu (clean_nb ha).2 e
    exact absurd (h1 ▸ hcu) hc
  · have := suffix_skip (clean_nb ha).1 hs h
    rw [List.suffix_cons_iff] at this
    rcases this with h | h
    · obtain ⟨u, x, rfl, -⟩ := hs
      exact absurd (List.cons.inj h).1 (by decide)
    · exact h

/-- the first bracket after a daughter's first name is an opening one. -/
theorem dText_opens (d : Decay) (hd : GoodDecay d) (x : Name) : ∃ a y, dText d ++ '[' :: x = a ++ '[' :: y ∧ ']' ∉ a := by
  cases d with
  | fs n => exact ⟨sanitize n, x, rfl, (clean_nb (clean_sanitize hd.2)).2⟩
  | iso p dd L S d1 d2 =>
    unfold dText
    have hb := (clean_nb (clean_base hd.2.2.1 hd.1)).2
    generalize dText d1 ++ '[' :: (spinText L ++ ',' :: (spinText S ++ ']' :: (dText d2 ++ [']']))) = w
    cases h : labelIn dd p with
    | none =>
      refine ⟨labelBase dd p ++ ['='], w ++ '[' :: x, by simp [bracket], ?_⟩
      intro hm
      rcases List.mem_append.1 hm with hm | hm
      · exact hb hm
      · exact absurd hm (by decide)
    | some s =>
      exact ⟨labelBase dd p, s ++ ']' :: '=' :: '[' :: (w ++ '[' :: x), by simp [bracket], hb⟩

theorem suffix_decay : ∀ (d : Decay), GoodDecay d → ∀ (r s : Name), HeaderLike s → s <:+ dText d ++ r → s <:+ r
  | .fs n, hd, r, s, hs, h => suffix_skip (clean_nb (clean_sanitize hd.2)).1 hs h
  | .iso p dd L S d1 d2, hd, r, s, hs, h => by
    have ih1 := suffix_decay d1 hd.2.2.2.1
    have ih2 := suffix_decay d2 hd.2.2.2.2
    simp only [dText, List.append_assoc, List.cons_append, List.nil_append] at h
    have h1 := suffix_skip (clean_nb (clean_base hd.2.2.1 hd.1)).1 hs h
    -- the label's bracket
    have h2 : s <:+ '=' :: '[' :: (dText d1 ++ '[' :: (spinText L ++ ',' :: (spinText S ++ ']' :: (dText d2 ++ ']' :: r)))) := by
      cases ho : labelIn dd p with
      | none => rw [ho] at h1; exact h1
      | some t =>
        rw [ho] at h1
        simp only [bracket, List.cons_append, List.append_assoc, List.nil_append] at h1
        exact suffix_skip_bracket (clean_in hd.2.2.1 hd.1 ho) (in_count hd.2.2.1 hd.1 ho) hs h1
    have h3 := suffix_skip (a := ['=']) (by decide) hs h2
    rw [List.suffix_cons_iff] at h3
    rcases h3 with h3 | h3
    · -- the vertex bracket contains another bracket before it closes
      exfalso
      obtain ⟨u, x, rfl, hu1, hu2, -⟩ := hs
      have e := (List.cons.inj h3).2
      have hop := dText_opens d1 hd.2.2.2.1 (spinText L ++ ',' :: (spinText S ++ ']' :: (dText d2 ++ ']' :: r)))
      obtain ⟨a, y, h', ha⟩ := hop
      have e' := e.trans h'
      -- position of the first closing bracket
      rcases List.append_eq_append_iff.1 e' with ⟨t, rfl, ht⟩ | ⟨t, rfl, ht⟩
      · cases t with
        | nil => exact absurd (List.cons.inj ht).1 (by decide)
        | cons c t =>
          have : c = ']' := (List.cons.inj ht).1.symm
          exact ha (by rw [this]; simp)
      · cases t with
        | nil => exact absurd (List.cons.inj ht).1 (by decide)
        | cons c t =>
          have : c = '[' := (List.cons.inj ht).1.symm
          exact hu1 (by rw [this]; simp)
    · have h4 := ih1 _ s hs h3
      have h4' : s <:+ '[' :: ((spinText L ++ ',' :: spinText S) ++ ']' :: (dText d2 ++ ']' :: r)) := by
        simpa only [List.append_assoc, List.cons_append] using h4
      have h5 := suffix_skip_bracket ((clean_spin L).append (clean_cons (by decide) (clean_spin S))) (by
        rw [List.count_append, List.count_cons_self, List.count_eq_zero_of_not_mem (spinText_no L _ (by decide) (by decide) (by decide)),
          List.count_eq_zero_of_not_mem (spinText_no S _ (by decide) (by decide) (by decide))]
        decide) hs h4'
      have h6 := ih2 _ s hs h5
      exact suffix_skip (a := [']']) (by decide) hs h6

end Rpwa.Fit
