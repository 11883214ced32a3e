import Verif.Props.EvtConvert
/-!
# Conversion of event files to text and back (C94): consequences and round trip -/
namespace Rpwa.EvtConvert

open Rpwa.Storage

theorem count_filter_pair {α : Type} [DecidableEq α] (l : List (String × α)) (n : String) (a : α) : l.count (n, a) = (l.filter fun x => x.1 = n).count (n, a) := by
  rw [List.count_filter (by simp)]

open Classical in
/-- **C94** in an event that has the same particles as the first one, in any order, every momentum is used exactly once, for a particle of its name. -/
theorem all_used {α : Type} {names ns : List String} {ds sel : List α} (h : Selected names (ns.zip ds) sel) (hp : ns.Perm names) (hl : ds.length = ns.length) :
    (names.zip sel).Perm (ns.zip ds) := by
  rw [List.perm_iff_count]
  rintro ⟨n, a⟩
  rw [count_filter_pair, count_filter_pair (ns.zip ds), h.2 n, List.take_of_length_le]
  rw [filter_zip_length ns ds hl, hp.count_eq]

/-- **C94** particles that the first event does not have are dropped without a message. -/
theorem extra_dropped (T : Text) (beam : String) (names : List String) (b : Line) (ds : List Line) (w w' : String) (l : Line) (n : String) (row : Row)
    (h : RowOf T beam names ([w] :: b :: ds) row) (hl : HasName T l n) (hw : T.pInt w' = some (1 + (ds.length + 1))) :
    RowOf T beam names ([w'] :: b :: (ds ++ [l])) row := by
  obtain ⟨b', ds', ns, p, sel, ⟨w₀, hb, -, hbe, hde⟩, h1, h2, h3, h4, h5, h6, h7⟩ := h
  obtain ⟨-, hb⟩ := List.cons.inj hb
  obtain ⟨rfl, rfl⟩ := List.cons.inj hb
  have hlen := h2.length_eq
  refine ⟨b, ds ++ [l], ns ++ [n], p, sel, ⟨w', rfl, by rw [hw]; simp, hbe, ?_⟩, h1, ?_, ⟨h3.1, ?_⟩, h4, h5, h6, h7⟩
  · intro x hx
    rcases List.mem_append.1 hx with hx | hx
    · exact hde x hx
    · obtain ⟨_, _, _, rfl, _⟩ := hl
      rw [List.mem_singleton.1 hx]
      simp
  · exact List.rel_append h2 (.cons hl .nil)
  · intro k
    rw [List.zip_append hlen.symm, List.filter_append]
    have hk := h3.2 k
    have hc := congrArg List.length hk
    rw [filter_zip_length names sel h3.1, List.length_take] at hc
    rw [hk, List.take_append_of_le_length (by omega)]

theorem blocks_rest {T : Text} {rest tail : List Line} (ht : IsTail tail) : ∀ {blocks blocks' : List (List Line)},
    (∀ x ∈ blocks, ∃ b ds, IsBlock T b ds x) → (∀ x ∈ blocks', ∃ b ds, IsBlock T b ds x) → blocks.flatten ++ rest = blocks'.flatten ++ tail →
    ∃ more, blocks' = blocks ++ more ∧ rest = more.flatten ++ tail := by
  intro blocks
  induction blocks with
  | nil => intro blocks' _ _ he; exact ⟨blocks', rfl, by simpa using he⟩
  | cons x xs ih =>
    intro blocks' hb hb' he
    obtain ⟨b, ds, hx⟩ := hb x List.mem_cons_self
    have h1 := isBlock_lines hx (xs.flatten ++ rest)
    rw [← List.append_assoc, ← List.flatten_cons, he] at h1
    cases blocks' with
    | nil =>
      have := (getEvent_none T _).2 ht
      rw [List.flatten_nil, List.nil_append, this] at h1
      cases Outcome.ok.inj h1
    | cons y ys =>
      obtain ⟨b', ds', hy⟩ := hb' y List.mem_cons_self
      have h2 := isBlock_lines hy (ys.flatten ++ tail)
      rw [List.flatten_cons, List.append_assoc, h2] at h1
      obtain ⟨e1, e2⟩ := Prod.mk.inj (Option.some.inj (Outcome.ok.inj h1))
      obtain ⟨more, rfl, hr⟩ := ih (fun z hz => hb z (List.mem_cons_of_mem _ hz)) (fun z hz => hb' z (List.mem_cons_of_mem _ hz)) e2.symm
      refine ⟨more, ?_, hr⟩
      have hxy : x = y := by
        rw [List.flatten_cons, List.flatten_cons, List.append_assoc, List.append_assoc, e2] at he
        exact List.append_cancel_right he
      rw [hxy]
      rfl

theorem read_blocks {md5 : Hashor → String} {T : Text} {a : ConvArgs} {ls : List Line} {m : EventMeta} (h : evtToTree md5 T a ls = .ok m) {blocks : List (List Line)} {rest : List Line}
    (hb : ∀ x ∈ blocks, ∃ b ds, IsBlock T b ds x) (hls : ls = blocks.flatten ++ rest) :
    ∃ beam names more tail rows, IsTail tail ∧ rest = more.flatten ++ tail ∧ List.Forall₂ (RowOf T beam names) (blocks ++ more) rows ∧ m.tree = some ⟨[], rows⟩ ∧
      ∃ first b ds, (blocks ++ more).head? = some first ∧ IsBlock T b ds first ∧ HasName T b beam ∧ List.Forall₂ (HasName T) ds names := by
  obtain ⟨bounds, beam, names, block, blocks', tail, rows, -, hls', ht, ⟨b, ds, hbl, hbn, hds⟩, hf, rfl⟩ := (read_iff md5 T a ls m).1 h
  have hblocks : ∀ x ∈ block :: blocks', ∃ b ds, IsBlock T b ds x := by
    have : ∀ {xs : List (List Line)} {rs : List Row}, List.Forall₂ (RowOf T beam names) xs rs → ∀ x ∈ xs, ∃ b ds, IsBlock T b ds x := by
      intro xs rs hxr
      induction hxr with
      | nil => intro x hx; cases hx
      | cons h1 _ ih =>
        intro x hx
        rcases List.mem_cons.1 hx with rfl | hx
        · obtain ⟨b, ds, _, _, _, hb, _⟩ := h1
          exact ⟨b, ds, hb⟩
        · exact ih x hx
    exact this hf
  obtain ⟨more, hmore, hrest⟩ := blocks_rest ht hb hblocks (hls.symm.trans hls')
  refine ⟨beam, names, more, tail, rows, ht, hrest, by rw [← hmore]; exact hf, rfl, block, b, ds, by rw [← hmore]; rfl, hbl, hbn, hds⟩

/-- **C94** a text that ends within an event is refused, whatever events come before. -/
theorem truncated_refused (md5 : Hashor → String) (T : Text) (a : ConvArgs) (blocks : List (List Line)) (hb : ∀ x ∈ blocks, ∃ b ds, IsBlock T b ds x)
    (w : String) (n : ℤ) (hw : T.pInt w = some n) (short : List Line) (hs : (short.length : ℤ) < n) (m : EventMeta) :
    evtToTree md5 T a (blocks.flatten ++ [w] :: short) ≠ .ok m := by
  intro h
  obtain ⟨beam, names, more, tail, rows, ht, hrest, hf, -⟩ := read_blocks h hb rfl
  cases more with
  | nil =>
    rw [List.flatten_nil, List.nil_append] at hrest
    rcases ht with rfl | ⟨x, rfl⟩ <;> cases hrest
  | cons x more =>
    have hx : x ∈ blocks ++ x :: more := by simp
    have : ∀ {xs : List (List Line)} {rs : List Row}, List.Forall₂ (RowOf T beam names) xs rs → ∀ x ∈ xs, ∃ r, RowOf T beam names x r := by
      intro xs rs hxr
      induction hxr with
      | nil => intro x hx; cases hx
      | cons h1 _ ih =>
        intro x hx
        rcases List.mem_cons.1 hx with rfl | hx
        · exact ⟨_, h1⟩
        · exact ih x hx
    obtain ⟨r, b, ds, _, _, _, ⟨w', rfl, hp, -⟩, -⟩ := this hf x hx
    rw [List.flatten_cons, List.cons_append, List.cons_append] at hrest
    obtain ⟨h1, h2⟩ := List.cons.inj hrest
    obtain ⟨rfl, -⟩ := List.cons.inj h1
    rw [hw] at hp
    have := Option.some.inj hp
    have := congrArg List.length h2
    simp at this
    omega

/-- **C94** a text with an event that has another beam than the first one, or of some particle fewer than the first one, is refused. -/
theorem incomplete_refused (md5 : Hashor → String) (T : Text) (a : ConvArgs) (first : List Line) (blocks : List (List Line)) (hb : ∀ x ∈ blocks, ∃ b ds, IsBlock T b ds x)
    (b₀ : Line) (ds₀ : List Line) (beam : String) (names : List String) (h₀ : IsBlock T b₀ ds₀ first) (hb₀ : HasName T b₀ beam) (hn₀ : List.Forall₂ (HasName T) ds₀ names)
    (bad : List Line) (b : Line) (ds : List Line) (beam' : String) (ns : List String) (hbad : IsBlock T b ds bad) (hbn : HasName T b beam') (hns : List.Forall₂ (HasName T) ds ns)
    (hdiff : beam' ≠ beam ∨ ∃ n, ns.count n < names.count n) (rest : List Line) (m : EventMeta) :
    evtToTree md5 T a ((first :: blocks).flatten ++ (bad ++ rest)) ≠ .ok m := by
  intro h
  obtain ⟨beam₁, names₁, more, tail, rows, ht, hrest, hf, -, first', b₁, ds₁, hhead, hblk, hbn₁, hns₁⟩ := read_blocks (blocks := first :: blocks ++ [bad]) (rest := rest) h (by
    intro x hx
    rcases List.mem_append.1 hx with hx | hx
    · rcases List.mem_cons.1 hx with rfl | hx
      · exact ⟨_, _, h₀⟩
      · exact hb x hx
    · rw [List.mem_singleton.1 hx]; exact ⟨_, _, hbad⟩) (by simp)
  have hff : first = first' := by simpa using hhead
  subst hff
  obtain ⟨w1, e1, -⟩ := hblk
  obtain ⟨w2, e2, -⟩ := h₀
  rw [e2] at e1
  obtain ⟨rfl, rfl⟩ := List.cons.inj (List.cons.inj e1).2
  have hbeq := hasName_unique hb₀ hbn₁
  subst hbeq
  have hneq : names = names₁ := by
    have x1 := (names_iff T ds₀ names).2 hn₀
    have x2 := (names_iff T ds₀ names₁).2 hns₁
    rw [x1] at x2
    exact Outcome.ok.inj x2
  subst hneq
  have : ∀ {xs : List (List Line)} {rs : List Row}, List.Forall₂ (RowOf T beam names) xs rs → ∀ x ∈ xs, ∃ r, RowOf T beam names x r := by
    intro xs rs hxr
    induction hxr with
    | nil => intro x hx; cases hx
    | cons h1 _ ih =>
      intro x hx
      rcases List.mem_cons.1 hx with rfl | hx
      · exact ⟨_, h1⟩
      · exact ih x hx
  obtain ⟨r, b2, ds2, ns2, p, sel, ⟨w3, e3, -⟩, k1, k2, k3, -⟩ := this hf bad (by simp)
  obtain ⟨w4, e4, -⟩ := hbad
  rw [e4] at e3
  obtain ⟨rfl, rfl⟩ := List.cons.inj (List.cons.inj e3).2
  rcases hdiff with hd | ⟨n, hn⟩
  · exact hd (hasName_unique hbn k1)
  · have hnn : ns = ns2 := by
      have x1 := (names_iff T ds ns).2 hns
      have x2 := (names_iff T ds ns2).2 k2
      rw [x1] at x2
      exact Outcome.ok.inj x2
    subst hnn
    have hc := congrArg List.length (k3.2 n)
    rw [filter_zip_length names sel k3.1, List.length_take, filter_zip_length ns ds k2.length_eq] at hc
    omega

/-! ### round trip -/

/-- a particle that can be written and read back. -/
def Writable (P : PartData) (n : String) : Prop := P.inTable n = true ∧ ∃ k ∈ Evt.Spec.known, k.2.1 = n

theorem writeParticle_line (T : Text) (hint : ∀ n, T.pInt (T.fInt n) = some n) (P : PartData) {n : String} (hn : Writable P n) {v : Vec3} (hv : ReadBack T v) :
    ∃ l, writeParticle T P (n, v) = .ok l ∧ HasName T l n ∧ HasMomentum T l v := by
  obtain ⟨hin, k, hk, rfl⟩ := hn
  refine ⟨[T.fInt k.1, T.fInt (P.charge k.2.1), T.fDbl v.x, T.fDbl v.y, T.fDbl v.z, T.fDbl (P.energy k.2.1 v)], ?_, ?_, ?_⟩
  · unfold writeParticle
    rw [if_neg (by simp [hin])]
    dsimp only
    rw [(Evt.id_of_name k hk).1]
    rfl
  · exact ⟨_, _, k.1, rfl, hint _, Or.inl ⟨k.2.2, hk⟩⟩
  · exact ⟨_, _, _, _, _, _, rfl, hv.1, hv.2.1, hv.2.2⟩

theorem writeParticles_lines (T : Text) (hint : ∀ n, T.pInt (T.fInt n) = some n) (P : PartData) : ∀ (ns : List String) (vs : List Vec3), vs.length = ns.length →
    (∀ n ∈ ns, Writable P n) → (∀ v ∈ vs, ReadBack T v) →
    ∃ ls, (ns.zip vs).mapM (writeParticle T P) = .ok ls ∧ List.Forall₂ (HasName T) ls ns ∧ List.Forall₂ (HasMomentum T) ls vs := by
  intro ns
  induction ns with
  | nil =>
    intro vs hl _ _
    rw [List.length_eq_zero_iff.1 hl]
    exact ⟨[], rfl, .nil, .nil⟩
  | cons n ns ih =>
    intro vs hl hn hv
    cases vs with
    | nil => simp at hl
    | cons v vs =>
      obtain ⟨l, h1, h2, h3⟩ := writeParticle_line T hint P (hn n List.mem_cons_self) (hv v List.mem_cons_self)
      obtain ⟨ls, k1, k2, k3⟩ := ih vs (by simpa using hl) (fun x hx => hn x (List.mem_cons_of_mem _ hx)) (fun x hx => hv x (List.mem_cons_of_mem _ hx))
      refine ⟨l :: ls, ?_, .cons h2 k2, .cons h3 k3⟩
      rw [Pick.mapM_ok_iff] at k1 ⊢
      exact .cons h1 k1

/-- the entry without additional variables. -/
def bare (r : Row) : Row := ⟨r.prod, r.decay, []⟩

theorem writeEvent_row (T : Text) (hint : ∀ n, T.pInt (T.fInt n) = some n) (P : PartData) {em : EventMeta} {beam : String} (hp : em.prodNames = [beam])
    (hb : Writable P beam) (hd : ∀ n ∈ em.decayNames, Writable P n) {r : Row} (h1 : r.prod.length = 1) (h2 : r.decay.length = em.decayNames.length)
    (hv : ∀ v ∈ r.prod ++ r.decay, ReadBack T v) :
    ∃ block, writeEvent T P em r = .ok block ∧ RowOf T beam em.decayNames block (bare r) ∧ ∃ b ds, IsBlock T b ds block ∧ HasName T b beam ∧ List.Forall₂ (HasName T) ds em.decayNames := by
  obtain ⟨v, hr⟩ := List.length_eq_one_iff.1 h1
  obtain ⟨l, k1, k2, k3⟩ := writeParticle_line T hint P hb (hv v (by rw [hr]; simp))
  obtain ⟨ls, j1, j2, j3⟩ := writeParticles_lines T hint P em.decayNames r.decay h2 hd (fun x hx => hv x (List.mem_append_right _ hx))
  have hblock : IsBlock T l ls ([T.fInt ((em.prodNames.length + em.decayNames.length : ℕ) : ℤ)] :: ([l] ++ ls)) := by
    refine ⟨_, rfl, ?_, ?_, ?_⟩
    · rw [hint, hp, j2.length_eq]
      simp
    · obtain ⟨_, _, _, rfl, _⟩ := k2
      simp
    · intro x hx hxe
      subst hxe
      have : ∀ {xs : List Line} {ys : List String}, List.Forall₂ (HasName T) xs ys → [] ∉ xs := by
        intro xs ys hxy
        induction hxy with
        | nil => simp
        | cons a _ ih =>
          obtain ⟨_, _, _, rfl, _⟩ := a
          simpa using ih
      exact this j2 hx
  refine ⟨_, ?_, ?_, l, ls, hblock, k2, j2⟩
  · unfold writeEvent
    rw [if_neg (by rw [hp, hr, h2]; simp), if_neg (by rw [hp, hr, h2]; simp)]
    refine (Pick.bind_ok_iff _ _ _).2 ⟨[l], ?_, (Pick.bind_ok_iff _ _ _).2 ⟨ls, j1, rfl⟩⟩
    rw [hp, hr, List.zip_cons_cons, List.zip_nil_left, Pick.mapM_ok_iff]
    exact .cons k1 .nil
  · refine ⟨l, ls, em.decayNames, v, ls, hblock, k2, j2, ⟨j2.length_eq, fun n => ?_⟩, k3, j3, hr, rfl⟩
    rw [List.take_of_length_le]
    rw [filter_zip_length _ _ j2.length_eq]

/-- **C94** a file with one beam particle that is written as text and read again has the same particles and momenta in the same order, if the numbers
that are written are read back (`%.16e` writes 17 digits); the additional variables are lost; without additional variables the content hash is the same. -/
theorem round_trip (md5 : Hashor → String) (T : Text) (hint : ∀ n, T.pInt (T.fInt n) = some n) (P : PartData) (a : ConvArgs) {bounds : Bounds} (hbd : a.bounds = some bounds)
    {em : EventMeta} {t : Tree} (ht : em.tree = some t) (hne : t.rows ≠ []) {beam : String} (hp : em.prodNames = [beam]) (hb : Writable P beam) (hd : ∀ n ∈ em.decayNames, Writable P n)
    (hs : ∀ r ∈ t.rows, r.prod.length = 1 ∧ r.decay.length = em.decayNames.length ∧ ∀ v ∈ r.prod ++ r.decay, ReadBack T v) :
    ∃ text m, treeToEvt T P em = .ok text ∧ evtToTree md5 T a text = .ok m ∧ m.prodNames = em.prodNames ∧ m.decayNames = em.decayNames ∧
      m.tree = some ⟨[], t.rows.map bare⟩ ∧ (WellFormed em t → em.addNames = [] → em.contentHash = em.recalculateHash md5 → m.contentHash = em.contentHash) := by
  have key : ∀ rows : List Row, (∀ r ∈ rows, r.prod.length = 1 ∧ r.decay.length = em.decayNames.length ∧ ∀ v ∈ r.prod ++ r.decay, ReadBack T v) →
      ∃ blocks, rows.mapM (writeEvent T P em) = .ok blocks ∧ List.Forall₂ (RowOf T beam em.decayNames) blocks (rows.map bare) ∧
        ∀ x ∈ blocks, ∃ b ds, IsBlock T b ds x ∧ HasName T b beam ∧ List.Forall₂ (HasName T) ds em.decayNames := by
    intro rows
    induction rows with
    | nil => intro _; exact ⟨[], rfl, .nil, by simp⟩
    | cons r rows ih =>
      intro h
      obtain ⟨x1, x2, x3⟩ := h r List.mem_cons_self
      obtain ⟨block, y1, y2, y3⟩ := writeEvent_row T hint P hp hb hd x1 x2 x3
      obtain ⟨blocks, z1, z2, z3⟩ := ih fun r' hr' => h r' (List.mem_cons_of_mem _ hr')
      refine ⟨block :: blocks, ?_, .cons y2 z2, ?_⟩
      · rw [Pick.mapM_ok_iff] at z1 ⊢
        exact .cons y1 z1
      · intro x hx
        rcases List.mem_cons.1 hx with rfl | hx
        · exact y3
        · exact z3 x hx
  obtain ⟨blocks, h1, h2, h3⟩ := key t.rows hs
  refine ⟨blocks.flatten, fileWith md5 a bounds beam em.decayNames (t.rows.map bare), ?_, ?_, hp.symm, rfl, rfl, ?_⟩
  · unfold treeToEvt
    rw [ht]
    dsimp only
    exact (Pick.bind_ok_iff _ _ _).2 ⟨blocks, h1, rfl⟩
  · rw [read_iff]
    cases blocks with
    | nil =>
      have := h2.length_eq
      simp at this
      exact absurd this.symm (by simpa using hne)
    | cons x xs =>
      exact ⟨bounds, beam, em.decayNames, x, xs, [], _, hbd, by simp, Or.inl rfl, h3 x List.mem_cons_self, h2, rfl⟩
  · intro hw hadd hh
    have hg : GoodNames em.addNames := by rw [hadd]; exact ⟨List.nodup_nil, by simp⟩
    rw [hh, recalculateHash_spec md5 hw hg]
    show md5 ((t.rows.map bare).flatMap eventBytes) = _
    congr 1
    rw [List.flatMap_map]
    apply List.flatMap_congr
    intro r hr
    have : r.vals = [] := List.length_eq_zero_iff.1 (by rw [hw.len r hr, hadd]; rfl)
    obtain ⟨_, _, _⟩ := r
    dsimp only at this
    rw [this]
    rfl

/-- **C94** a particle without GEANT number is written with number 0 and read back as "unknown". -/
theorem unknown_particle (T : Text) (hint : ∀ n, T.pInt (T.fInt n) = some n) (P : PartData) {n : String} (hin : P.inTable n = true) {q : ℤ} (hn : Evt.idOfName n.toList = .ok (0, q)) (v : Vec3) :
    ∃ l, writeParticle T P (n, v) = .ok l ∧ HasName T l "unknown" := by
  refine ⟨[T.fInt 0, T.fInt (P.charge n), T.fDbl v.x, T.fDbl v.y, T.fDbl v.z, T.fDbl (P.energy n v)], ?_, ?_⟩
  · unfold writeParticle
    rw [if_neg (by simp [hin])]
    dsimp only
    rw [hn]
    rfl
  · refine ⟨_, _, 0, rfl, hint _, Or.inr ⟨rfl, ?_⟩⟩
    decide +kernel

example : Evt.idOfName "Xi-".toList = .ok (0, -1) := by decide +kernel

end Rpwa.EvtConvert
