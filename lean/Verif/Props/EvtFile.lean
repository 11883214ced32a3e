import Verif.Spec.EvtFile
import Verif.Lemmas.Outcome
import Verif.Props.LikSetup
import Mathlib.Tactic.Linarith
import Mathlib.Tactic.NormNum
/-!
# Events in text files
-/
namespace Rpwa.Evt
open Rpwa.Particle Rpwa.Evt.Spec

/-! ### numbers and names of particles -/

private theorem find_rel {A B R : Type} (k : ℤ) (f : A → R) (g : B → R) (ka : A → ℤ) (kb : B → ℤ) {as : List A} {bs : List B}
    (h : List.Forall₂ (fun a b => ka a = kb b ∧ f a = g b) as bs) :
    (as.find? fun a => ka a = k).map f = (bs.find? fun b => kb b = k).map g := by
  induction h with
  | nil => rfl
  | cons hab _ ih =>
    rename_i a b as bs _
    by_cases hk : ka a = k
    · rw [List.find?_cons_of_pos (p := fun a => decide (ka a = k)) (by simp [hk]), List.find?_cons_of_pos (p := fun b => decide (kb b = k)) (by simp [← hab.1, hk])]
      simp [hab.2]
    · rw [List.find?_cons_of_neg (p := fun a => decide (ka a = k)) (by simp [hk]), List.find?_cons_of_neg (p := fun b => decide (kb b = k)) (by simp [← hab.1, hk])]
      exact ih

/-- **The name for a number** is the one of the table with its charge, for every integer; "unknown" for the others. -/
theorem name_of_id (id : ℤ) : nameOfId id = .ok (match known.find? fun k => k.1 = id with | some k => k.2.1.toList | none => "unknown".toList) := by
  have h := find_rel id (fun x : String × ℤ => (chargeFromName x.1.toList).bind fun r => Outcome.ok (nameWithCharge r.1 r.2))
    (fun k : ℤ × String × ℤ => Outcome.ok k.2.1.toList) (fun x => x.2) (fun k => k.1) (as := geantTable) (bs := known) (by
      unfold geantTable known
      repeat' constructor)
  unfold nameOfId
  cases hg : geantTable.find? (fun x => x.2 = id) with
  | none =>
    rw [hg] at h
    cases hk : known.find? (fun k => k.1 = id) with
    | none => rfl
    | some k => rw [hk] at h; cases h
  | some x =>
    rw [hg] at h
    cases hk : known.find? (fun k => k.1 = id) with
    | none => rw [hk] at h; cases h
    | some k => rw [hk] at h; exact Option.some.inj h

private theorem known_find (k : ℤ × String × ℤ) (hk : k ∈ known) : known.find? (fun j => j.1 = k.1) = some k := by
  revert k
  decide +kernel

private theorem known_charge (k : ℤ × String × ℤ) (hk : k ∈ known) : k.2.1.toList ≠ "unknown".toList ∧ (chargeFromName k.2.1.toList).bind (fun r => .ok r.2) = .ok k.2.2 := by
  revert k
  decide +kernel

/-- **The number for a name** of the table is its number, with its charge: translating number to name and back gives the number and the charge, name to number and back the name. -/
theorem id_of_name (k : ℤ × String × ℤ) (hk : k ∈ known) : idOfName k.2.1.toList = .ok (k.1, k.2.2) ∧ nameOfId k.1 = .ok k.2.1.toList := by
  constructor
  · revert k
    decide +kernel
  · rw [name_of_id, known_find k hk]

private theorem checkCharge_known (k : ℤ × String × ℤ) (hk : k ∈ known) (q : ℤ) : checkCharge k.2.1.toList q = .ok (decide (q = k.2.2)) := by
  obtain ⟨h1, h2⟩ := known_charge k hk
  unfold checkCharge
  rw [if_neg h1]
  cases hc : chargeFromName k.2.1.toList with
  | ok r => rw [hc] at h2; have h3 : r.2 = k.2.2 := Outcome.ok.inj h2; rw [← h3]; rfl
  | terminate => rw [hc] at h2; cases h2
  | ub => rw [hc] at h2; cases h2

/-! ### a line with a particle -/

/-- what is read from a line: id, charge, momentum. -/
private theorem readPart_iff (l : Line) (id q : ℤ) (p : Mom) : readPart l = some (id, q, p) ↔
    ∃ (x y z e : Tok) (rest : Line), l = .int id :: .int q :: x :: y :: z :: e :: rest ∧ x.toDbl = some p.1 ∧ y.toDbl = some p.2.1 ∧ z.toDbl = some p.2.2 ∧ e.toDbl ≠ none := by
  constructor
  · intro h
    match l, h with
    | a :: b :: x :: y :: z :: e :: rest, h =>
      unfold readPart at h
      simp only [Option.bind_eq_bind, Option.bind_eq_some_iff, Option.pure_def, Option.some.injEq, Prod.mk.injEq] at h
      obtain ⟨i, hi, j, hj, px, hx, py, hy, pz, hz, ee, he, h1, h2, h3⟩ := h
      cases a <;> cases hi
      cases b <;> cases hj
      subst h1 h2 h3
      exact ⟨x, y, z, e, rest, rfl, hx, hy, hz, by rw [he]; exact fun h => (by cases h)⟩
  · rintro ⟨x, y, z, e, rest, rfl, hx, hy, hz, he⟩
    obtain ⟨ee, he⟩ := Option.ne_none_iff_exists'.1 he
    unfold readPart
    simp [Tok.toInt, hx, hy, hz, he]

/-- reading a line never ends the program. -/
private theorem part_total (l : Line) : ∃ r, part l = .ok r := by
  unfold part
  cases hr : readPart l with
  | none => exact ⟨_, rfl⟩
  | some r =>
    dsimp only
    rw [name_of_id]
    unfold Outcome.bind
    dsimp only
    cases hk : known.find? (fun k => k.1 = r.1) with
    | none => exact ⟨some ("unknown".toList, r.2.2, false), rfl⟩
    | some k =>
      have := checkCharge_known k (List.mem_of_find?_eq_some hk) r.2.1
      dsimp only
      rw [this]
      exact ⟨_, rfl⟩

/-- a line is read without complaint exactly if it says a particle. -/
private theorem part_says (l : Line) (n : Name) (p : Mom) : part l = .ok (some (n, p, true)) ↔ Says l n p := by
  constructor
  · intro h
    unfold part at h
    cases hr : readPart l with
    | none => rw [hr] at h; cases h
    | some r =>
      obtain ⟨id, q, p'⟩ := r
      rw [hr] at h
      dsimp only at h
      rw [name_of_id] at h
      unfold Outcome.bind at h
      dsimp only at h
      cases hk : known.find? (fun k => k.1 = id) with
      | none => rw [hk] at h; cases h
      | some k =>
        have hm := List.mem_of_find?_eq_some hk
        have hid : k.1 = id := by simpa using List.find?_some hk
        rw [hk] at h
        dsimp only at h
        rw [checkCharge_known k hm q] at h
        simp only [Outcome.ok.injEq, Option.some.injEq, Prod.mk.injEq, decide_eq_true_eq] at h
        obtain ⟨h1, h2, h3⟩ := h
        obtain ⟨x, y, z, e, rest, hl, hx, hy, hz, he⟩ := (readPart_iff l id q p').1 hr
        subst h2
        exact ⟨k, x, y, z, e, rest, hm, h1.symm, by rw [hl, hid, h3], hx, hy, hz, he⟩
  · rintro ⟨k, x, y, z, e, rest, hm, rfl, hl, hx, hy, hz, he⟩
    have hr := (readPart_iff l k.1 k.2.2 p).2 ⟨x, y, z, e, rest, hl, hx, hy, hz, he⟩
    unfold part
    rw [hr]
    dsimp only
    rw [name_of_id, known_find k hm]
    unfold Outcome.bind
    dsimp only
    rw [checkCharge_known k hm]
    simp

/-! ### an event -/

private theorem mapM_part (ls : List Line) : ∃ ds, ls.mapM part = .ok ds ∧ List.Forall₂ (fun l d => part l = .ok d) ls ds := by
  induction ls with
  | nil => exact ⟨[], rfl, .nil⟩
  | cons l ls ih =>
    obtain ⟨ds, h, hf⟩ := ih
    obtain ⟨d, hd⟩ := part_total l
    refine ⟨d :: ds, ?_, .cons hd hf⟩
    rw [List.mapM_cons, hd, Outcome.ok_bind, h, Outcome.ok_bind]
    rfl

private theorem mapM_says {ls : List Line} {ns : List (Name × Mom)} (h : List.Forall₂ (fun l (x : Name × Mom) => Says l x.1 x.2) ls ns) :
    ls.mapM part = .ok (ns.map fun x => some (x.1, x.2, true)) := by
  induction h with
  | nil => rfl
  | cons hx _ ih => rw [List.mapM_cons, (part_says _ _ _).2 hx, Outcome.ok_bind, ih, Outcome.ok_bind]; rfl

/-- one event of the given particles. -/
private theorem event_says (s : St) (beam : Name) (decay : List Name) (e : Mom × List Mom) (b : Line) (ds : List Line) (hd : decay ≠ [])
    (hb : Says b beam e.1) (hds : List.Forall₂ (fun l (x : Name × Mom) => Says l x.1 x.2) ds (decay.zip e.2)) (hl : e.2.length = decay.length) :
    event s (1 + decay.length) b ds = if s.names.getD (beam, decay) = (beam, decay) then .ok ⟨s.success, s.events ++ [Spec.entry e], some (beam, decay)⟩ else .terminate := by
  unfold event
  rw [(part_says _ _ _).2 hb]
  show ((ds.mapM part).bind _) = _
  rw [mapM_says hds]
  unfold Outcome.bind
  dsimp only
  have hn : ((decay.zip e.2).map fun x => (some (x.1, x.2, true) : Option (Name × Mom × Bool))).map nm = decay := by
    rw [List.map_map]
    show (decay.zip e.2).map Prod.fst = decay
    exact List.map_fst_zip hl.ge
  have hm : ((decay.zip e.2).map fun x => (some (x.1, x.2, true) : Option (Name × Mom × Bool))).map (fun x => x.map fun r => r.2.1) = e.2.map some := by
    rw [List.map_map]
    have : (decay.zip e.2).map Prod.snd = e.2 := List.map_snd_zip hl.le
    conv_rhs => rw [← this]
    rw [List.map_map]
    rfl
  have hlen : ((decay.zip e.2).map fun x => (some (x.1, x.2, true) : Option (Name × Mom × Bool))).length = decay.length := by simp [hl]
  have hpos : 0 < decay.length := List.length_pos_iff.2 hd
  rw [if_pos (by
    refine ⟨by omega, by rw [hlen]; ring, ?_⟩
    cases hg : ((decay.zip e.2).map fun x => (some (x.1, x.2, true) : Option (Name × Mom × Bool))).getLast? with
    | none => rw [List.getLast?_eq_none_iff] at hg; rw [hg] at hlen; simp at hlen; omega
    | some y =>
      obtain ⟨x, _, rfl⟩ := List.mem_map.1 (List.mem_of_getLast? hg)
      rfl)]
  rw [hn, hm]
  by_cases hs : s.names.getD (beam, decay) = (beam, decay)
  · rw [if_pos hs, if_pos hs, hs]
    simp [Spec.entry]
  · rw [if_neg hs, if_neg hs]

/-- an event that is read without complaint. -/
private theorem event_sound (s s' : St) (n : ℤ) (b : Line) (ds : List Line) (h : event s n b ds = .ok s') (hs : s'.success = true) :
    s.success = true ∧ ∃ (beam : Name) (decay : List Name) (e : Mom × List Mom), n = 1 + decay.length ∧ decay ≠ [] ∧ Says b beam e.1 ∧
      List.Forall₂ (fun l (x : Name × Mom) => Says l x.1 x.2) ds (decay.zip e.2) ∧ e.2.length = decay.length ∧ s.names.getD (beam, decay) = (beam, decay) ∧
      s' = ⟨true, s.events ++ [Spec.entry e], some (beam, decay)⟩ := by
  have h0 := h
  unfold event at h
  obtain ⟨rb, hrb⟩ := part_total b
  rw [hrb] at h
  cases rb with
  | none => cases h
  | some rb =>
    obtain ⟨beam, pb, okb⟩ := rb
    obtain ⟨rs, hrs, hf⟩ := mapM_part ds
    change ((ds.mapM part).bind _) = _ at h
    rw [hrs] at h
    unfold Outcome.bind at h
    dsimp only at h
    split_ifs at h with hc hn
    cases h
    dsimp only at hs
    simp only [Bool.and_eq_true] at hs
    obtain ⟨⟨hs1, rfl⟩, hs3⟩ := hs
    -- all lines were read
    have hall : ∃ ns : List (Name × Mom), rs = ns.map fun x => some (x.1, x.2, true) := by
      clear * - hs3
      induction rs with
      | nil => exact ⟨[], rfl⟩
      | cons r rs ih =>
        rw [List.all_cons, Bool.and_eq_true] at hs3
        obtain ⟨ns, hns⟩ := ih hs3.2
        cases r with
        | none => cases hs3.1
        | some r => exact ⟨(r.1, r.2.1) :: ns, by rw [hns]; obtain ⟨a, b, c⟩ := r; have : c = true := hs3.1; rw [this]; rfl⟩
    obtain ⟨ns, rfl⟩ := hall
    have hz : (ns.map Prod.fst).zip (ns.map Prod.snd) = ns := by
      rw [List.zip_map']
      exact List.map_id ns
    have hds : List.Forall₂ (fun l (x : Name × Mom) => Says l x.1 x.2) ds ((ns.map Prod.fst).zip (ns.map Prod.snd)) := by
      rw [hz]
      rw [List.forall₂_map_right_iff] at hf
      exact hf.imp fun a b hab => (part_says _ _ _).1 hab
    have hlen : n = 1 + (ns.map Prod.fst).length := by
      have := hc.2.1
      rw [List.length_map] at this
      rw [List.length_map]
      omega
    have hne : ns.map Prod.fst ≠ [] := by
      intro h
      have := hc.1
      rw [hlen, h] at this
      simp at this
    have hev := event_says s beam (ns.map Prod.fst) (pb, ns.map Prod.snd) b ds hne ((part_says _ _ _).1 hrb) hds (by simp)
    rw [← hlen, h0] at hev
    refine ⟨hs1, beam, ns.map Prod.fst, (pb, ns.map Prod.snd), hlen, hne, (part_says _ _ _).1 hrb, hds, by simp, ?_, ?_⟩
    · by_contra hcon
      rw [if_neg hcon] at hev
      cases hev
    · by_cases hcon : s.names.getD (beam, ns.map Prod.fst) = (beam, ns.map Prod.fst)
      · rw [if_pos hcon] at hev
        rw [Outcome.ok.inj hev, hs1]
      · rw [if_neg hcon] at hev
        cases hev

/-! ### the loop over events -/

/-- events of the same particles are read one after the other. -/
private theorem loop_blocks (max : ℤ) (hmax : max ≤ 0) (beam : Name) (decay : List Name) (rest : List Line) :
    ∀ {evs : List (Mom × List Mom)} {blocks : List (List Line)}, List.Forall₂ (EventLines beam decay) evs blocks →
    ∀ (k : ℕ) (s : St), (blocks.flatten ++ rest).length ≤ k → s.names.getD (beam, decay) = (beam, decay) →
      ∃ k', rest.length ≤ k' ∧ fillLoop max k s (blocks.flatten ++ rest) =
        fillLoop max k' ⟨s.success, s.events ++ evs.map Spec.entry, if evs = [] then s.names else some (beam, decay)⟩ rest := by
  intro evs blocks h
  induction h with
  | nil =>
    intro k s hk _
    exact ⟨k, hk, by simp⟩
  | cons hx _ ih =>
    rename_i e blk evs blocks _
    intro k s hk hn
    obtain ⟨r0, b, ds, rfl, hd, hb, hds, hl⟩ := hx
    have hlen : ds.length = decay.length := by rw [hds.length_eq, List.length_zip, hl, min_self]
    obtain ⟨k, rfl⟩ : ∃ j, k = j + 1 := ⟨k - 1, by simp at hk; omega⟩
    have hto : ((1 + (decay.length : ℤ)) - 1).toNat = ds.length := by rw [hlen]; omega
    obtain ⟨k', hk', hfin⟩ := ih k ⟨s.success, s.events ++ [Spec.entry e], some (beam, decay)⟩ (by simp at hk ⊢; omega) rfl
    refine ⟨k', hk', ?_⟩
    have e1 : (((Tok.int (1 + decay.length) :: r0) :: b :: ds) :: blocks).flatten ++ rest = (Tok.int (1 + decay.length) :: r0) :: b :: (ds ++ (blocks.flatten ++ rest)) := by
      simp
    rw [e1, fillLoop]
    have e2 : readNumber (Tok.int (1 + decay.length) :: r0) = 1 + (decay.length : ℤ) := rfl
    rw [e2, if_pos (by omega), hto, List.take_left, List.drop_left, event_says s beam decay e b ds hd hb hds hl, if_pos hn]
    unfold Outcome.bind
    dsimp only
    rw [if_neg (by omega), hfin]
    congr 1
    simp

private theorem tail_iff (t : List Line) : Tail t ↔ t = [] ∨ ∃ l, t = [l] ∧ 0 < readNumber l := by
  constructor
  · rintro (h | ⟨n, r, hn, rfl⟩)
    · exact .inl h
    · exact .inr ⟨_, rfl, hn⟩
  · rintro (h | ⟨l, rfl, hl⟩)
    · exact .inl h
    · match l, hl with
      | .int m :: r0, hn => exact .inr ⟨m, r0, hn, rfl⟩
      | .num x :: r0, hn => exact absurd hn (by simp [readNumber, Tok.toInt])
      | .word :: r0, hn => exact absurd hn (by simp [readNumber, Tok.toInt])
      | [], hn => exact absurd hn (by simp [readNumber])

private theorem loop_tail (max : ℤ) (k : ℕ) (s : St) (t : List Line) (ht : Tail t) : fillLoop max k s t = .ok s := by
  rcases (tail_iff t).1 ht with rfl | ⟨l, rfl, hl⟩
  · cases k <;> rfl
  · cases k with
    | zero => rfl
    | succ k =>
      rw [fillLoop]
      rw [if_pos hl]

private theorem loop_sound (max : ℤ) (hmax : max ≤ 0) : ∀ (k : ℕ) (s s' : St) (ls : List Line), ls.length ≤ k → fillLoop max k s ls = .ok s' → s'.success = true →
    s.success = true ∧ ∃ (beam : Name) (decay : List Name) (evs : List (Mom × List Mom)) (blocks : List (List Line)) (t : List Line),
      ls = blocks.flatten ++ t ∧ Tail t ∧ List.Forall₂ (EventLines beam decay) evs blocks ∧ s'.events = s.events ++ evs.map Spec.entry ∧
      (evs = [] ∧ s'.names = s.names ∨ evs ≠ [] ∧ s'.names = some (beam, decay) ∧ s.names.getD (beam, decay) = (beam, decay)) := by
  intro k
  induction k with
  | zero =>
    intro s s' ls hk h hs
    have : ls = [] := List.eq_nil_of_length_eq_zero (by omega)
    subst this
    cases h
    exact ⟨hs, [], [], [], [], [], rfl, .inl rfl, .nil, by simp, .inl ⟨rfl, rfl⟩⟩
  | succ k ih =>
    intro s s' ls hk h hs
    match ls, h with
    | [], h => cases h; exact ⟨hs, [], [], [], [], [], rfl, .inl rfl, .nil, by simp, .inl ⟨rfl, rfl⟩⟩
    | l :: ls, h =>
      by_cases hn : readNumber l > 0
      · unfold fillLoop at h
        dsimp only at h
        rw [if_pos hn] at h
        match ls, h with
        | [], h => cases h; exact ⟨hs, [], [], [], [], [l], rfl, (tail_iff _).2 (.inr ⟨l, rfl, hn⟩), .nil, by simp, .inl ⟨rfl, rfl⟩⟩
        | b :: rest, h =>
          dsimp only at h
          cases he : event s (readNumber l) b (rest.take (readNumber l - 1).toNat) with
          | terminate => rw [he] at h; cases h
          | ub => rw [he] at h; cases h
          | ok s1 =>
            rw [he] at h
            change (if _ then _ else _) = _ at h
            rw [if_neg (by omega)] at h
            have hlen : (rest.drop (readNumber l - 1).toNat).length ≤ k := by simp at hk ⊢; omega
            obtain ⟨hs1, beam', decay', evs, blocks, t, hls, ht, hf, hev, hnm⟩ := ih s1 s' _ hlen h hs
            obtain ⟨hs0, beam, decay, e, hnum, hd, hb, hds, hl2, hg, rfl⟩ := event_sound _ _ _ _ _ he hs1
            have hpick : List.Forall₂ (EventLines beam decay) evs blocks ∧ s'.names = some (beam, decay) := by
              rcases hnm with ⟨rfl, h2⟩ | ⟨_, h2, h3⟩
              · cases hf
                exact ⟨.nil, h2⟩
              · have : (beam, decay) = (beam', decay') := h3
                cases this
                exact ⟨hf, h2⟩
            have hl0 : ∃ r0, l = Tok.int (1 + decay.length) :: r0 := by
              match l, hnum, hn with
              | .int m :: r0, hnum, _ => exact ⟨r0, by have : m = _ := hnum; rw [this]⟩
              | .num x :: r0, _, hn => exact absurd hn (by simp [readNumber, Tok.toInt])
              | .word :: r0, _, hn => exact absurd hn (by simp [readNumber, Tok.toInt])
              | [], _, hn => exact absurd hn (by simp [readNumber])
            obtain ⟨r0, hl0⟩ := hl0
            refine ⟨hs0, beam, decay, e :: evs, (l :: b :: rest.take (readNumber l - 1).toNat) :: blocks, t, ?_, ht, .cons ⟨r0, b, _, by rw [← hl0], hd, hb, hds, hl2⟩ hpick.1, ?_,
              .inr ⟨by simp, hpick.2, hg⟩⟩
            · rw [List.flatten_cons, List.append_assoc, ← hls]
              show l :: b :: rest = l :: b :: (rest.take _ ++ rest.drop _)
              rw [List.take_append_drop]
            · rw [hev]
              simp
      · unfold fillLoop at h
        dsimp only at h
        rw [if_neg hn] at h
        cases h

/-- **What a text file of events says, and only that, is read**: the reading of a whole file succeeds with the given events and names exactly if the file is a sequence of
events, each with the number of particles, the line of the beam and one line for each decay particle, the particles being known, with their charges, and the same in all events;
the last event may be cut off after the number of particles. Momenta are the numbers of the lines, in order. -/
theorem read_iff (ls : List Line) (max : ℤ) (hmax : max ≤ 0) (es : List Ev) (beam : Name) (decay : List Name) : fillTree ls max = .ok ⟨true, es, some (beam, decay)⟩ ↔
    ∃ (evs : List (Mom × List Mom)) (blocks : List (List Line)) (t : List Line),
      ls = blocks.flatten ++ t ∧ Tail t ∧ evs ≠ [] ∧ List.Forall₂ (EventLines beam decay) evs blocks ∧ es = evs.map Spec.entry := by
  constructor
  · intro h
    obtain ⟨_, beam', decay', evs, blocks, t, hls, ht, hf, hev, hnm⟩ := loop_sound max hmax _ _ _ _ le_rfl h rfl
    rcases hnm with ⟨_, h2⟩ | ⟨hne, h2, _⟩
    · cases h2
    · cases h2
      exact ⟨evs, blocks, t, hls, ht, hne, hf, by simpa using hev⟩
  · rintro ⟨evs, blocks, t, rfl, ht, hne, hf, rfl⟩
    obtain ⟨k', _, h⟩ := loop_blocks max hmax beam decay t hf _ ⟨true, [], none⟩ le_rfl rfl
    unfold fillTree
    rw [h, loop_tail max k' _ t ht, if_neg hne]
    rfl

/-- **A file without complete event** gives an empty tree without names; only the empty file and the file with nothing but a number of particles do. -/
theorem read_empty (ls : List Line) (max : ℤ) (hmax : max ≤ 0) (es : List Ev) : fillTree ls max = .ok ⟨true, es, none⟩ ↔ Tail ls ∧ es = [] := by
  constructor
  · intro h
    obtain ⟨_, beam', decay', evs, blocks, t, hls, ht, hf, hev, hnm⟩ := loop_sound max hmax _ _ _ _ le_rfl h rfl
    rcases hnm with ⟨rfl, _⟩ | ⟨_, h2, _⟩
    · cases hf
      exact ⟨by simpa [hls] using ht, by simpa using hev⟩
    · cases h2
  · rintro ⟨ht, rfl⟩
    exact loop_tail max _ _ ls ht

/-- **The particles must not change**: an event with other particles than the events before it ends the program. -/
theorem changed_particles (max : ℤ) (hmax : max ≤ 0) (beam beam' : Name) (decay decay' : List Name) (evs : List (Mom × List Mom)) (blocks : List (List Line))
    (h : List.Forall₂ (EventLines beam decay) evs blocks) (hne : evs ≠ []) (e : Mom × List Mom) (block : List Line) (hb : EventLines beam' decay' e block)
    (hdiff : (beam', decay') ≠ (beam, decay)) (more : List Line) : fillTree (blocks.flatten ++ (block ++ more)) max = .terminate := by
  obtain ⟨k', hk', hl⟩ := loop_blocks max hmax beam decay (block ++ more) h _ ⟨true, [], none⟩ le_rfl rfl
  unfold fillTree
  rw [hl, if_neg hne]
  obtain ⟨r0, b, ds, rfl, hd, hbm, hds, hl2⟩ := hb
  have hlen : ds.length = decay'.length := by rw [hds.length_eq, List.length_zip, hl2, min_self]
  obtain ⟨k', rfl⟩ : ∃ j, k' = j + 1 := ⟨k' - 1, by simp at hk'; omega⟩
  have hto : ((1 + (decay'.length : ℤ)) - 1).toNat = ds.length := by rw [hlen]; omega
  have e1 : ((Tok.int (1 + decay'.length) :: r0) :: b :: ds) ++ more = (Tok.int (1 + decay'.length) :: r0) :: b :: (ds ++ more) := rfl
  rw [e1, fillLoop]
  have e2 : readNumber (Tok.int (1 + decay'.length) :: r0) = 1 + (decay'.length : ℤ) := rfl
  dsimp only
  rw [e2, if_pos (by omega), hto, List.take_left, event_says _ beam' decay' e b ds hd hbm hds hl2, if_neg (by
    show (beam, decay) ≠ (beam', decay')
    exact hdiff.symm)]
  rfl

/-- **Limiting the number of events**: with a limit, the first events are read, whatever follows them. -/
theorem read_limit (beam : Name) (decay : List Name) (rest : List Line) : ∀ {evs : List (Mom × List Mom)} {blocks : List (List Line)},
    List.Forall₂ (EventLines beam decay) evs blocks → evs ≠ [] → fillTree (blocks.flatten ++ rest) evs.length = .ok ⟨true, evs.map Spec.entry, some (beam, decay)⟩ := by
  have key : ∀ {evs : List (Mom × List Mom)} {blocks : List (List Line)}, List.Forall₂ (EventLines beam decay) evs blocks → evs ≠ [] →
      ∀ (k : ℕ) (s : St) (max : ℤ), max = s.events.length + evs.length → (blocks.flatten ++ rest).length ≤ k → s.names.getD (beam, decay) = (beam, decay) →
        fillLoop max k s (blocks.flatten ++ rest) = .ok ⟨s.success, s.events ++ evs.map Spec.entry, some (beam, decay)⟩ := by
    intro evs blocks h
    induction h with
    | nil => intro h; exact absurd rfl h
    | cons hx _ ih =>
      rename_i e blk evs blocks _
      intro _ k s max hmax hk hn
      obtain ⟨r0, b, ds, rfl, hd, hb, hds, hl⟩ := hx
      have hlen : ds.length = decay.length := by rw [hds.length_eq, List.length_zip, hl, min_self]
      obtain ⟨k, rfl⟩ : ∃ j, k = j + 1 := ⟨k - 1, by simp at hk; omega⟩
      have hto : ((1 + (decay.length : ℤ)) - 1).toNat = ds.length := by rw [hlen]; omega
      have e1 : (((Tok.int (1 + decay.length) :: r0) :: b :: ds) :: blocks).flatten ++ rest = (Tok.int (1 + decay.length) :: r0) :: b :: (ds ++ (blocks.flatten ++ rest)) := by
        simp
      rw [e1, fillLoop]
      have e2 : readNumber (Tok.int (1 + decay.length) :: r0) = 1 + (decay.length : ℤ) := rfl
      rw [e2, if_pos (by omega), hto, List.take_left, List.drop_left, event_says s beam decay e b ds hd hb hds hl, if_pos hn]
      unfold Outcome.bind
      dsimp only
      by_cases hne : evs = []
      · subst hne
        rw [if_pos (by simp at hmax ⊢; omega)]
        simp
      · have hpos : 0 < evs.length := List.length_pos_iff.2 hne
        rw [if_neg (by simp at hmax ⊢; omega)]
        rw [ih hne k ⟨s.success, s.events ++ [Spec.entry e], some (beam, decay)⟩ max (by simp at hmax ⊢; omega) (by simp at hk ⊢; omega) rfl]
        simp
  intro evs blocks h hne
  have := key h hne _ ⟨true, [], none⟩ evs.length (by simp) le_rfl rfl
  simpa [fillTree] using this

/-! ### writing and reading back -/

private theorem write_says (rd : ℝ → ℝ) (mass : Name → ℝ) (n : Name) (hn : n ∈ known.map fun k => k.2.1.toList) (p : Mom) :
    ∃ l, writePart rd mass n p = .ok l ∧ Says l n (rd p.1, rd p.2.1, rd p.2.2) := by
  obtain ⟨k, hk, rfl⟩ := List.mem_map.1 hn
  unfold writePart
  rw [(id_of_name k hk).1]
  exact ⟨_, rfl, k, _, _, _, _, [], hk, rfl, rfl, rfl, rfl, rfl, fun h => (by cases h)⟩

/-- the components of a momentum as they are read back. -/
def rd3 (rd : ℝ → ℝ) (p : Mom) : Mom := (rd p.1, rd p.2.1, rd p.2.2)

private theorem writeEntry_says (rd : ℝ → ℝ) (mass : Name → ℝ) (beam : Name) (others decay : List Name) (hb : beam ∈ known.map fun k => k.2.1.toList)
    (hd : ∀ n ∈ decay, n ∈ known.map fun k => k.2.1.toList) (hne : decay ≠ []) (p : Mom) (ps ds : List Mom) (h1 : ps.length = others.length) (h2 : ds.length = decay.length) :
    ∃ ls, writeEntry rd mass (beam :: others) decay ⟨p :: ps, ds⟩ = .ok ls ∧ EventLines beam decay (rd3 rd p, ds.map (rd3 rd)) ls := by
  obtain ⟨l, hl, hls⟩ := write_says rd mass beam hb p
  have hall : ∃ ls, ((decay.zip ds).mapM fun x => writePart rd mass x.1 x.2) = .ok ls ∧
      List.Forall₂ (fun l (x : Name × Mom) => Says l x.1 x.2) ls (decay.zip (ds.map (rd3 rd))) := by
    clear hne
    induction decay generalizing ds with
    | nil => exact ⟨[], rfl, .nil⟩
    | cons n decay ih =>
      match ds, h2 with
      | d :: ds, h2 =>
        obtain ⟨l, hl, hls⟩ := write_says rd mass n (hd n (by simp)) d
        obtain ⟨ls, hm, hf⟩ := ih (fun n hn => hd n (List.mem_cons_of_mem _ hn)) ds (by simpa using h2)
        refine ⟨l :: ls, ?_, .cons hls hf⟩
        rw [List.zip_cons_cons, List.mapM_cons, hl, Outcome.ok_bind, hm, Outcome.ok_bind]
        rfl
  obtain ⟨ls, hm, hf⟩ := hall
  refine ⟨[.int (1 + decay.length)] :: l :: ls, ?_, [], l, ls, rfl, hne, hls, hf, by simp [h2]⟩
  unfold writeEntry
  rw [if_pos ⟨by simp [h1], h2.symm⟩]
  dsimp only
  rw [if_neg hne, hl]
  show ((decay.zip ds).mapM fun x => writePart rd mass x.1 x.2).bind _ = _
  rw [hm]
  rfl

/-- **Writing a tree and reading the file gives the tree back**, up to the digits of the numbers and without the production particles other than the beam: if the particles are
known, there is at least one decay particle and each event has a momentum for each particle, then writing succeeds, and reading the file gives the same number of events in the
same order, the names, and the momenta as printed. -/
theorem round_trip (rd : ℝ → ℝ) (mass : Name → ℝ) (beam : Name) (others decay : List Name) (hb : beam ∈ known.map fun k => k.2.1.toList)
    (hd : ∀ n ∈ decay, n ∈ known.map fun k => k.2.1.toList) (hne : decay ≠ []) (es : List (Mom × List Mom × List Mom)) (hes : es ≠ [])
    (hl : ∀ e ∈ es, e.2.1.length = others.length ∧ e.2.2.length = decay.length) (max : ℤ) (hmax : max ≤ 0) :
    ∃ ls, writeEvt rd mass (beam :: others) decay (es.map fun e => ⟨e.1 :: e.2.1, e.2.2⟩) max = .ok ls ∧
      fillTree ls max = .ok ⟨true, es.map fun e => ⟨rd3 rd e.1, e.2.2.map fun p => some (rd3 rd p)⟩, some (beam, decay)⟩ := by
  have hall : ∃ blocks, (es.map fun e => (⟨e.1 :: e.2.1, e.2.2⟩ : Entry)).mapM (writeEntry rd mass (beam :: others) decay) = .ok blocks ∧
      List.Forall₂ (EventLines beam decay) (es.map fun e => (rd3 rd e.1, e.2.2.map (rd3 rd))) blocks := by
    clear hes
    induction es with
    | nil => exact ⟨[], rfl, .nil⟩
    | cons e es ih =>
      obtain ⟨b, h1, h2⟩ := writeEntry_says rd mass beam others decay hb hd hne e.1 e.2.1 e.2.2 (hl e (by simp)).1 (hl e (by simp)).2
      obtain ⟨bs, h3, h4⟩ := ih fun e he => hl e (List.mem_cons_of_mem _ he)
      refine ⟨b :: bs, ?_, .cons h2 h4⟩
      rw [List.map_cons, List.mapM_cons, h1, Outcome.ok_bind, h3, Outcome.ok_bind]
      rfl
  obtain ⟨blocks, h1, h2⟩ := hall
  refine ⟨blocks.flatten, ?_, (read_iff _ max hmax _ _ _).2 ⟨_, blocks, [], (List.append_nil _).symm, .inl rfl, by simpa using hes, h2, ?_⟩⟩
  · unfold writeEvt
    rw [if_neg (by omega), h1]
    rfl
  · rw [List.map_map]
    refine List.map_congr_left fun e _ => ?_
    simp [Spec.entry]

/-- **The printed digits do not suffice** to get the numbers back: 16 significant digits are the same for 1 and for the next larger number. -/
theorem digits_lost : (1 : ℝ) ≠ 1 + 1 / 2 ^ 52 ∧ ⌊(1 + 1 / 2 ^ 52 : ℝ) * 10 ^ 15 + 1 / 2⌋ = ⌊(1 : ℝ) * 10 ^ 15 + 1 / 2⌋ := by
  constructor
  · norm_num
  · rw [show ⌊(1 : ℝ) * 10 ^ 15 + 1 / 2⌋ = 10 ^ 15 by rw [Int.floor_eq_iff]; constructor <;> norm_num, Int.floor_eq_iff]
    constructor <;> norm_num

/-- **The η'** is in the table under another mass: its usual name gets the number 0 in the file, and 0 is no particle that could be read. -/
theorem eta_prime : idOfName "eta'(958)0".toList = .ok (0, 0) ∧ nameOfId 0 = .ok "unknown".toList ∧ ∀ (l : Line) (p : Mom), ¬ Says l "eta'(958)0".toList p := by
  refine ⟨by rfl, by rfl, ?_⟩
  rintro l p ⟨k, x, y, z, e, rest, hk, hn, -⟩
  have : ∀ k ∈ known, "eta'(958)0".toList ≠ k.2.1.toList := by decide +kernel
  exact this k hk hn

/-! ### several files -/

/-- **One file** is opened as it is read. -/
theorem open_single (ls : List Line) (es : List Ev) (beam : Name) (decay : List Name) (h : fillTree ls (-1) = .ok ⟨true, es, some (beam, decay)⟩) :
    openFiles none [some ls] = .ok (some ⟨some [beam], some decay, [es]⟩) := by
  unfold openFiles openAll openOne
  dsimp only
  rw [h]
  rfl

/-- files that cannot be opened are skipped. -/
theorem open_skips (root : Option (List Name × List Name × List Ev)) (fs : List (Option (List Line))) : openFiles root fs = openFiles root (fs.filter Option.isSome) := by
  have key : ∀ (fs : List (Option (List Line))) (s : Opened), openAll s fs = openAll s (fs.filter Option.isSome) := by
    intro fs
    induction fs with
    | nil => intro s; rfl
    | cons f fs ih =>
      intro s
      cases f with
      | none => rw [List.filter_cons_of_neg (by simp)]; exact ih s
      | some ls =>
        rw [List.filter_cons_of_pos (by simp)]
        unfold openAll
        congr 1
        funext r
        cases r with
        | none => rfl
        | some s' => exact ih s'
  unfold openFiles
  dsimp only
  rw [key]

/-- a file with events after names are known makes the opening fail. -/
private theorem openOne_known (s : Opened) (ns : List Name) (hs : s.prod = some ns) (ls : List Line) (ok : Bool) (es : List Ev) (n : Name × List Name)
    (h : fillTree ls (-1) = .ok ⟨ok, es, some n⟩) : openOne s (some ls) = .ok none := by
  unfold openOne
  dsimp only
  rw [h]
  unfold Outcome.bind
  dsimp only
  have : checkNames s.prod [n.1] = none := by
    rw [hs]
    unfold checkNames
    dsimp only
    by_cases hl : [n.1].length ≠ ns.length
    · rw [if_pos hl]
    · rw [if_neg hl, if_neg (by simp)]
  rw [this]

/-- **No second file can be opened**: with two files that both contain an event the opening always fails, in particular when the particles are the same and both files are
correct; so does a file with events beside a ROOT file. (The report of the error is inside the loop that compares the names, so it is reached when they agree.) -/
theorem second_file_fails (ls1 ls2 : List Line) (ok1 ok2 : Bool) (es1 es2 : List Ev) (n1 n2 : Name × List Name) (h1 : fillTree ls1 (-1) = .ok ⟨ok1, es1, some n1⟩)
    (h2 : fillTree ls2 (-1) = .ok ⟨ok2, es2, some n2⟩) (fs : List (Option (List Line))) (r : List Name × List Name × List Ev) :
    openFiles none (some ls1 :: some ls2 :: fs) = .ok none ∧ openFiles (some r) (some ls1 :: fs) = .ok none := by
  constructor
  · unfold openFiles openAll
    dsimp only
    have h : openOne ⟨none, none, []⟩ (some ls1) = .ok (some ⟨some [n1.1], some n1.2, if ok1 then [es1] else []⟩) := by
      unfold openOne
      dsimp only
      rw [h1]
      rfl
    rw [h]
    unfold openAll
    unfold Outcome.bind
    dsimp only
    rw [openOne_known _ [n1.1] rfl ls2 ok2 es2 n2 h2]
  · unfold openFiles openAll
    dsimp only
    rw [openOne_known _ r.1 rfl ls1 ok1 es1 n1 h1]
    rfl

/-! ### amplitudes -/

private theorem process_fold {C E : Type} (amp : E → Option C) : ∀ (es : List E) (b : Bool) (acc : List C),
    es.foldl (fun r e => match amp e with | some c => (r.1, r.2 ++ [c]) | none => (false, r.2)) (b, acc) = (b && es.all fun e => (amp e).isSome, acc ++ es.filterMap amp) := by
  intro es
  induction es with
  | nil => intro b acc; simp
  | cons e es ih =>
    intro b acc
    rw [List.foldl_cons]
    cases h : amp e with
    | none =>
      dsimp only
      rw [ih, List.filterMap_cons_none h]
      simp [h]
    | some c =>
      dsimp only
      rw [ih, List.filterMap_cons_some h]
      simp [h]

/-- **The amplitudes of the events of a tree** come in the order of the events; if true is returned there is one for each event up to the limit; otherwise the events whose
momenta cannot be read are left out, and the amplitudes after them are no longer at the place of their event. -/
theorem process_tree {C E : Type} (amp : E → Option C) (es : List E) (max : ℤ) :
    ((processTree amp es max).1 = true ↔ ∀ e ∈ (if max > 0 then es.take max.toNat else es), amp e ≠ none) ∧
    ((processTree amp es max).1 = true → (processTree amp es max).2.map some = (if max > 0 then es.take max.toNat else es).map amp) ∧
    (processTree amp es max).2 = (if max > 0 then es.take max.toNat else es).filterMap amp := by
  have hp : processTree amp es max = (true && (if max > 0 then es.take max.toNat else es).all fun e => (amp e).isSome, [] ++ (if max > 0 then es.take max.toNat else es).filterMap amp) :=
    process_fold amp _ true []
  rw [hp]
  generalize (if max > 0 then es.take max.toNat else es) = l
  refine ⟨?_, ?_, by simp⟩
  · simp [Option.isSome_iff_ne_none]
  · intro h
    simp only [Bool.true_and, List.all_eq_true] at h
    rw [List.nil_append]
    induction l with
    | nil => rfl
    | cons e l ih =>
      obtain ⟨c, hc⟩ := Option.isSome_iff_exists.1 (h e (by simp))
      rw [List.filterMap_cons_some hc, List.map_cons, List.map_cons, hc, ih fun e he => h e (List.mem_cons_of_mem _ he)]

/-! ### examples -/

/-- two events `pi- → pi- gamma`. -/
example : fillTree [[.int 3], [.int 9, .int (-1), .num 0, .num 0, .num 190, .num 190], [.int 9, .int (-1), .num 1, .num 0, .num 90, .num 91],
    [.int 1, .int 0, .int 1, .num 0, .num 100, .num 100], [.int 3], [.int 9, .int (-1), .num 0, .num 1, .num 190, .num 190], [.int 9, .int (-1), .num 1, .num 2, .num 90, .num 91],
    [.int 1, .int 0, .num 1, .num 0, .num 99, .num 100, .word], [.int 3]] (-1) =
    .ok ⟨true, [⟨(0, 0, 190), [some (1, 0, 90), some (1, 0, 100)]⟩, ⟨(0, 1, 190), [some (1, 2, 90), some (1, 0, 99)]⟩], some ("pi-".toList, ["pi-".toList, "gamma0".toList])⟩ := by
  refine (read_iff _ (-1) (by norm_num) _ _ _).2 ⟨[((0, 0, 190), [(1, 0, 90), (1, 0, 100)]), ((0, 1, 190), [(1, 2, 90), (1, 0, 99)])],
    [[[.int 3], [.int 9, .int (-1), .num 0, .num 0, .num 190, .num 190], [.int 9, .int (-1), .num 1, .num 0, .num 90, .num 91], [.int 1, .int 0, .int 1, .num 0, .num 100, .num 100]],
     [[.int 3], [.int 9, .int (-1), .num 0, .num 1, .num 190, .num 190], [.int 9, .int (-1), .num 1, .num 2, .num 90, .num 91],
      [.int 1, .int 0, .num 1, .num 0, .num 99, .num 100, .word]]], [[.int 3]], rfl, .inr ⟨3, [], by norm_num, rfl⟩, by simp, ?_, by simp [Spec.entry]⟩
  have pim : ∀ x y z e : Tok, ∀ r p, x.toDbl = some (p : Mom).1 → y.toDbl = some p.2.1 → z.toDbl = some p.2.2 → e.toDbl ≠ none →
      Says (.int 9 :: .int (-1) :: x :: y :: z :: e :: r) "pi-".toList p := fun x y z e r p h1 h2 h3 h4 => ⟨(9, "pi-", -1), x, y, z, e, r, by simp [known], rfl, rfl, h1, h2, h3, h4⟩
  have gam : ∀ x y z e : Tok, ∀ r p, x.toDbl = some (p : Mom).1 → y.toDbl = some p.2.1 → z.toDbl = some p.2.2 → e.toDbl ≠ none →
      Says (.int 1 :: .int 0 :: x :: y :: z :: e :: r) "gamma0".toList p := fun x y z e r p h1 h2 h3 h4 => ⟨(1, "gamma0", 0), x, y, z, e, r, by simp [known], rfl, rfl, h1, h2, h3, h4⟩
  refine .cons ⟨[], _, _, rfl, by simp, pim _ _ _ _ _ _ rfl rfl rfl (by simp [Tok.toDbl]), .cons (pim _ _ _ _ _ _ rfl rfl rfl (by simp [Tok.toDbl]))
    (.cons (gam _ _ _ _ _ _ (by simp [Tok.toDbl]) rfl rfl (by simp [Tok.toDbl])) .nil), rfl⟩
    (.cons ⟨[], _, _, rfl, by simp, pim _ _ _ _ _ _ rfl rfl rfl (by simp [Tok.toDbl]), .cons (pim _ _ _ _ _ _ rfl rfl rfl (by simp [Tok.toDbl]))
    (.cons (gam _ _ _ _ _ _ rfl rfl rfl (by simp [Tok.toDbl])) .nil), rfl⟩ .nil)

/-- a tree that can be written and read back. -/
example : ∃ ls, writeEvt id (fun _ => 1) ["pi-".toList, "p+".toList] ["pi-".toList, "K_S0".toList] [⟨[(0, 0, 190), (0, 0, 0)], [(1, 0, 90), (2, 0, 100)]⟩] 0 = .ok ls ∧
    fillTree ls 0 = .ok ⟨true, [⟨(0, 0, 190), [some (1, 0, 90), some (2, 0, 100)]⟩], some ("pi-".toList, ["pi-".toList, "K_S0".toList])⟩ :=
  round_trip id (fun _ => 1) "pi-".toList ["p+".toList] ["pi-".toList, "K_S0".toList] (by decide +kernel) (by decide +kernel) (by simp)
    [((0, 0, 190), [(0, 0, 0)], [(1, 0, 90), (2, 0, 100)])] (by simp) (by simp) 0 le_rfl

example : processTree (fun n : ℕ => if n = 2 then none else some (10 * n)) [1, 2, 3] 0 = (false, [10, 30]) := by rfl

end Rpwa.Evt
