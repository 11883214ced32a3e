import Verif.Props.OtfBin
import Verif.Lemmas.Outcome
/-!
# The amplitudes loaded for a bin are those of its events (C48) -/
namespace Rpwa.Otf
open Rpwa.Storage

/-! ### specification -/

/-- the amplitudes of one wave for the events of one event file. -/
structure Block where
  hash : String
  amps : List ℂ

/-- an amplitude file as the amplitude calculation writes it: event file after event file. -/
def ampFile (wave : String) (bs : List Block) : AmpFile := ⟨wave, bs.map (·.hash), bs.flatMap (·.amps)⟩

/-- the event files were given to `setOnTheFlyBinning`, and have as many events as the amplitude file. -/
def Registered (p : Props) (bs : List Block) : Prop := ∀ b ∈ bs, ∃ sel, p.lookup b.hash = some (b.amps.length, sel) ∧ ∀ i ∈ sel, i < b.amps.length

/-- events in the bin: (number of the event file, entry of this file). -/
def keys (p : Props) (hs : List String) : List (ℕ × ℕ) := hs.zipIdx.flatMap fun hk => (get p hk.1).2.map fun i => (hk.2, i)

/-- amplitude of an event. -/
def ampOf (bs : List Block) (k : ℕ × ℕ) : ℂ := ((bs[k.1]?).map fun b => b.amps.getD k.2 0).getD 0

/-! ### reading -/

theorem lookup_mapSet (p : Props) (k k' : String) (v : ℕ × List ℕ) : (mapSet p k v).lookup k' = if k' = k then some v else p.lookup k' := by
  unfold mapSet
  by_cases h : k' = k
  · subst h; simp [List.lookup]
  · have hbeq : (k' == k) = false := by simpa using h
    rw [if_neg h, List.lookup_cons, hbeq]
    dsimp only
    induction p with
    | nil => rfl
    | cons e p ih =>
      by_cases he : e.1 = k
      · have he2 : (k' == e.1) = false := by rw [he]; exact hbeq
        rw [List.filter_cons_of_neg (by simpa using he), ih]
        obtain ⟨e1, e2⟩ := e
        rw [List.lookup_cons]
        simp only at he2
        rw [he2]
      · rw [List.filter_cons_of_pos (by simpa using he)]
        obtain ⟨e1, e2⟩ := e
        rw [List.lookup_cons, List.lookup_cons, ih]

theorem touch_of_some {p : Props} {k : String} {v : ℕ × List ℕ} (h : p.lookup k = some v) : touch p k = p := by
  unfold touch; rw [h]; rfl

/-- entries of one event file. -/
theorem readEntries_ok (tree pre : List ℂ) (amps : List ℂ) (post : List ℂ) (ht : tree = pre ++ amps ++ post) (sel : List ℕ) (hs : ∀ i ∈ sel, i < amps.length)
    (x : Option ℂ × List ℂ) :
    ∃ leaf, sel.foldlM (fun x i => readEntry tree x (pre.length + i)) x = .ok (leaf, x.2 ++ sel.map fun i => amps.getD i 0) := by
  induction sel generalizing x with
  | nil => exact ⟨x.1, by simp⟩
  | cons i sel ih =>
    have hi := hs i List.mem_cons_self
    have hg : tree[pre.length + i]? = some (amps.getD i 0) := by
      rw [ht, List.append_assoc, List.getElem?_append_right (by omega), Nat.add_sub_cancel_left, List.getElem?_append_left hi, List.getD_eq_getElem?_getD,
        List.getElem?_eq_getElem hi]
      rfl
    have hr : readEntry tree x (pre.length + i) = .ok (some (amps.getD i 0), x.2 ++ [amps.getD i 0]) := by
      unfold readEntry
      rw [hg]
    obtain ⟨leaf, hl⟩ := ih (fun j hj => hs j (List.mem_cons_of_mem _ hj)) (some (amps.getD i 0), x.2 ++ [amps.getD i 0])
    refine ⟨leaf, ?_⟩
    rw [List.foldlM_cons, hr]
    refine hl.trans ?_
    simp

theorem readBinned_ok (p : Props) (tree : List ℂ) (bs : List Block) (hr : Registered p bs) (pre : List ℂ) (ht : tree = pre ++ bs.flatMap (·.amps))
    (x : Option ℂ × List ℂ) :
    ∃ leaf, readBinned p tree (bs.map (·.hash)) pre.length x = .ok (leaf, x.2 ++ bs.flatMap fun b => (get p b.hash).2.map fun i => b.amps.getD i 0) := by
  induction bs generalizing pre x with
  | nil => exact ⟨x.1, by simp [readBinned]⟩
  | cons b bs ih =>
    obtain ⟨sel, h1, h2⟩ := hr b List.mem_cons_self
    have hg : get p b.hash = (b.amps.length, sel) := by unfold get; rw [h1]; rfl
    obtain ⟨leaf, hl⟩ := readEntries_ok tree pre b.amps (bs.flatMap (·.amps)) (by rw [ht]; simp) sel h2 x
    obtain ⟨leaf', hl'⟩ := ih (fun c hc => hr c (List.mem_cons_of_mem _ hc)) (pre ++ b.amps) (by rw [ht]; simp) (leaf, x.2 ++ sel.map fun i => b.amps.getD i 0)
    refine ⟨leaf', ?_⟩
    rw [List.map_cons, readBinned, hg]
    dsimp only
    rw [hl]
    rw [List.length_append] at hl'
    refine hl'.trans ?_
    simp [hg]

theorem readFiles_ok (p : Props) (w : String) (bss : List (List Block)) (hr : ∀ bs ∈ bss, Registered p bs) (acc : List ℂ) :
    readFiles true p (bss.map (ampFile w)) acc = .ok (acc ++ bss.flatten.flatMap fun b => (get p b.hash).2.map fun i => b.amps.getD i 0) := by
  induction bss generalizing acc with
  | nil => simp [readFiles]
  | cons bs bss ih =>
    obtain ⟨leaf, hl⟩ := readBinned_ok p (bs.flatMap (·.amps)) bs (hr bs List.mem_cons_self) [] (by simp) (none, acc)
    rw [List.map_cons, readFiles]
    rw [if_pos rfl]
    have hl' : readBinned p (ampFile w bs).tree (ampFile w bs).hashes 0 (none, acc) = .ok (leaf, acc ++ bs.flatMap fun b => (get p b.hash).2.map fun i => b.amps.getD i 0) := hl
    rw [hl']
    refine (ih (fun c hc => hr c (List.mem_cons_of_mem _ hc)) _).trans ?_
    simp

theorem countEvents_ok (p : Props) (w : String) (bss : List (List Block)) (hr : ∀ bs ∈ bss, Registered p bs) :
    countEvents true p (bss.map (ampFile w)) = ((bss.flatten.map fun b => (get p b.hash).2.length).sum, p) := by
  unfold countEvents
  have inner : ∀ (bs : List Block) (n : ℕ), Registered p bs →
      (bs.map (·.hash)).foldl (fun (tp : ℕ × Props) h => (tp.1 + (get (touch tp.2 h) h).2.length, touch tp.2 h)) (n, p) = (n + (bs.map fun b => (get p b.hash).2.length).sum, p) := by
    intro bs
    induction bs with
    | nil => intro n _; simp
    | cons b bs ih =>
      intro n hb
      obtain ⟨sel, h1, -⟩ := hb b List.mem_cons_self
      rw [List.map_cons, List.foldl_cons, touch_of_some h1, ih _ (fun c hc => hb c (List.mem_cons_of_mem _ hc)), List.map_cons, List.sum_cons, Nat.add_assoc]
  have outer : ∀ (bss : List (List Block)) (n : ℕ), (∀ bs ∈ bss, Registered p bs) →
      (bss.map (ampFile w)).foldl (fun (tp : ℕ × Props) f => if true then f.hashes.foldl (fun (tp : ℕ × Props) h => (tp.1 + (get (touch tp.2 h) h).2.length, touch tp.2 h)) tp
        else (tp.1 + f.tree.length, tp.2)) (n, p) = (n + (bss.flatten.map fun b => (get p b.hash).2.length).sum, p) := by
    intro bss
    induction bss with
    | nil => intro n _; simp
    | cons bs bss ih =>
      intro n hb
      rw [List.map_cons, List.foldl_cons, if_pos rfl]
      have := inner bs n (hb bs List.mem_cons_self)
      have e : (ampFile w bs).hashes = bs.map (·.hash) := rfl
      rw [e, this, ih _ (fun c hc => hb c (List.mem_cons_of_mem _ hc))]
      simp [Nat.add_assoc]
  have := outer bss 0 hr
  simpa using this

theorem checkOrder_fresh (otf : Bool) (p : Props) (hs : List String) (hr : ∀ h ∈ hs, (p.lookup h).isSome) (idx : ℕ) (order : List String) :
    checkOrder true otf p hs idx order = (true, order ++ hs) := by
  induction hs generalizing order with
  | nil => simp [checkOrder]
  | cons h hs ih =>
    have h1 := hr h List.mem_cons_self
    have h2 : (p.lookup h).isNone = false := by rw [Option.isNone_eq_false_iff]; exact h1
    rw [checkOrder, if_pos rfl, h2, Bool.and_false, if_neg (by simp), ih (fun x hx => hr x (List.mem_cons_of_mem _ hx))]
    simp

theorem checkOrder_old (otf : Bool) (p : Props) (hs : List String) (hr : ∀ h ∈ hs, (p.lookup h).isSome) (idx : ℕ) (order : List String) :
    (checkOrder false otf p hs idx order).2 = order ∧ ((checkOrder false otf p hs idx order).1 = true ↔ hs <+: order.drop idx) := by
  induction hs generalizing idx with
  | nil => simp [checkOrder]
  | cons h hs ih =>
    have h1 := hr h List.mem_cons_self
    have h2 : (p.lookup h).isNone = false := by rw [Option.isNone_eq_false_iff]; exact h1
    rw [checkOrder, if_neg (by simp)]
    by_cases hc : idx ≥ order.length ∨ order[idx]? ≠ some h
    · rw [if_pos hc]
      refine ⟨rfl, ?_⟩
      constructor
      · intro hf; simp at hf
      · intro hp
        exfalso
        obtain ⟨r, hr'⟩ := hp
        have hget : order[idx]? = some h := by
          have : (order.drop idx)[0]? = some h := by rw [← hr']; rfl
          simpa using this
        have hlt := (List.getElem?_eq_some_iff.1 hget).1
        rcases hc with hc | hc
        · omega
        · exact hc hget
    · rw [if_neg hc, h2, Bool.and_false, if_neg (by simp)]
      obtain ⟨i1, i2⟩ := ih (fun x hx => hr x (List.mem_cons_of_mem _ hx)) (idx + 1)
      refine ⟨i1, i2.trans ?_⟩
      push Not at hc
      have hd : order.drop idx = h :: order.drop (idx + 1) := by
        have hlt := hc.1
        rw [List.drop_eq_getElem_cons hlt]
        have := hc.2
        rw [List.getElem?_eq_getElem hlt] at this
        rw [Option.some.inj this]
      rw [hd, List.cons_prefix_cons]
      simp

theorem keys_eq (p : Props) (bs : List Block) : (keys p (bs.map (·.hash))).map (ampOf bs) = bs.flatMap fun b => (get p b.hash).2.map fun i => b.amps.getD i 0 := by
  unfold keys
  have key : ∀ (cs pre : List Block), ((cs.map (·.hash)).zipIdx pre.length).flatMap (fun hk => ((get p hk.1).2.map fun i => (hk.2, i)).map (ampOf (pre ++ cs))) =
      cs.flatMap fun b => (get p b.hash).2.map fun i => b.amps.getD i 0 := by
    intro cs
    induction cs with
    | nil => intro pre; rfl
    | cons c cs ih =>
      intro pre
      rw [List.map_cons, List.zipIdx_cons, List.flatMap_cons, List.flatMap_cons]
      have := ih (pre ++ [c])
      rw [List.length_append, List.length_singleton, List.append_assoc, List.singleton_append] at this
      rw [this, List.map_map]
      congr 1
      apply List.map_congr_left
      intro i _
      show ampOf (pre ++ c :: cs) (pre.length, i) = _
      unfold ampOf
      simp
  rw [List.map_flatMap]
  have := key bs []
  simpa using this

theorem keys_length (p : Props) (hs : List String) : (keys p hs).length = (hs.map fun h => (get p h).2.length).sum := by
  unfold keys
  have key : ∀ (hs : List String) (k : ℕ), ((hs.zipIdx k).flatMap fun hk => (get p hk.1).2.map fun i => (hk.2, i)).length = (hs.map fun h => (get p h).2.length).sum := by
    intro hs
    induction hs with
    | nil => intro k; rfl
    | cons h hs ih => intro k; rw [List.zipIdx_cons, List.flatMap_cons, List.length_append, ih]; simp
  exact key hs 0

theorem keys_prefix (p : Props) {hs order : List String} (h : hs <+: order) : keys p hs <+: keys p order := by
  obtain ⟨r, rfl⟩ := h
  unfold keys
  rw [List.zipIdx_append, List.flatMap_append]
  exact List.prefix_append _ _

/-! ### C48 -/

/-- **C48** adding the amplitudes of a wave whose event files are all registered: the call returns, is refused exactly when the wave is unknown, no event is in the bin,
the event files come in a different order than for earlier waves, or the number of events differs; otherwise the amplitudes are those of the selected events. -/
theorem addAmplitude_selected (w : String) (bs : List Block) (bss : List (List Block)) (s : LikState) (hp : s.props ≠ []) (hr : ∀ c ∈ bs :: bss, Registered s.props c) :
    ∃ ok s', addAmplitude ((bs :: bss).map (ampFile w)) s = .ok (ok, s') ∧ s'.props = s.props ∧ s'.waves = s.waves ∧
      (ok = true ↔ w ∈ s.waves ∧ keys s.props ((bs :: bss).flatten.map (·.hash)) ≠ [] ∧
        (s.order ≠ [] → (bs :: bss).flatten.map (·.hash) <+: s.order) ∧
        (s.nmbEvents ≠ 0 → (keys s.props ((bs :: bss).flatten.map (·.hash))).length = s.nmbEvents)) ∧
      (ok = true → s'.decayAmps = Function.update s.decayAmps w (some ((keys s.props ((bs :: bss).flatten.map (·.hash))).map (ampOf (bs :: bss).flatten))) ∧
        s'.nmbEvents = (keys s.props ((bs :: bss).flatten.map (·.hash))).length ∧
        s'.order = (if s.order = [] then (bs :: bss).flatten.map (·.hash) else s.order)) ∧
      (ok = false → s'.decayAmps = s.decayAmps ∧ s'.nmbEvents = s.nmbEvents ∧ (s.order ≠ [] ∨ s.nmbEvents = 0 → s'.order = s.order)) := by
  set B := bs :: bss with hB
  set K := keys s.props (B.flatten.map (·.hash)) with hK
  have hcount := countEvents_ok s.props w B hr
  have hlenK : (B.flatten.map fun b => (get s.props b.hash).2.length).sum = K.length := by
    rw [hK, keys_length, List.map_map]; rfl
  rw [hlenK] at hcount
  have hhash : (B.map (ampFile w)).flatMap (·.hashes) = B.flatten.map (·.hash) := by
    rw [List.flatMap_map, List.map_flatten]
    rw [List.flatMap_def]
    rfl
  have hreg : ∀ h ∈ B.flatten.map (·.hash), (s.props.lookup h).isSome := by
    intro h hh
    obtain ⟨b, hb, rfl⟩ := List.mem_map.1 hh
    obtain ⟨c, hc, hbc⟩ := List.mem_flatten.1 hb
    obtain ⟨sel, h1, -⟩ := hr c hc b hbc
    rw [h1]; rfl
  have hread := readFiles_ok s.props w B hr []
  rw [List.nil_append, ← keys_eq, ← hK] at hread
  have hotf : (!s.props.isEmpty) = true := by
    cases hq : s.props with
    | nil => exact absurd hq hp
    | cons a l => rfl
  have hfiles : B.map (ampFile w) = ampFile w bs :: bss.map (ampFile w) := rfl
  unfold addAmplitude
  rw [hfiles]
  dsimp only
  rw [← hfiles, hotf, hcount, hhash]
  have hany : ((B.map (ampFile w)).any fun g => g.wave != (ampFile w bs).wave) = false := by
    rw [List.any_eq_false]
    intro g hg
    obtain ⟨c, _, rfl⟩ := List.mem_map.1 hg
    simp [ampFile]
  rw [if_neg (by rw [hany]; simp)]
  have hw : (ampFile w bs).wave = w := rfl
  rw [hw]
  by_cases hwm : w ∈ s.waves
  swap
  · rw [if_pos hwm]
    refine ⟨false, s, rfl, rfl, rfl, ⟨by simp, fun h => absurd h.1 hwm⟩, by simp, fun _ => ⟨rfl, rfl, fun _ => rfl⟩⟩
  rw [if_neg (not_not.2 hwm)]
  dsimp only
  by_cases hk0 : K.length = 0
  · rw [if_pos hk0]
    refine ⟨false, s, rfl, rfl, rfl, ⟨by simp, fun h => absurd (List.length_eq_zero_iff.1 hk0) h.2.1⟩, by simp, fun _ => ⟨rfl, rfl, fun _ => rfl⟩⟩
  rw [if_neg hk0]
  have hKne : K ≠ [] := fun h => hk0 (by rw [h]; rfl)
  have hco : ∃ o, checkOrder s.order.isEmpty true s.props (B.flatten.map (·.hash)) 0 s.order = (o, if s.order = [] then B.flatten.map (·.hash) else s.order) ∧
      (o = true ↔ (s.order ≠ [] → B.flatten.map (·.hash) <+: s.order)) := by
    by_cases ho : s.order = []
    · refine ⟨true, ?_, by simp [ho]⟩
      rw [ho]
      simpa using checkOrder_fresh true s.props _ hreg 0 []
    · have hoe : s.order.isEmpty = false := by
        cases hq : s.order with
        | nil => exact absurd hq ho
        | cons a l => rfl
      obtain ⟨c1, c2⟩ := checkOrder_old true s.props _ hreg 0 s.order
      refine ⟨(checkOrder false true s.props (B.flatten.map (·.hash)) 0 s.order).1, ?_, ?_⟩
      · rw [hoe, if_neg ho]
        exact Prod.ext rfl c1
      · rw [c2, List.drop_zero]
        exact ⟨fun h _ => h, fun h => h ho⟩
  obtain ⟨o, ho1, ho2⟩ := hco
  rw [ho1]
  cases o with
  | false =>
    refine ⟨false, _, rfl, rfl, rfl, ⟨by simp, fun h => absurd (ho2.2 h.2.2.1) (by simp)⟩, by simp, fun _ => ⟨rfl, rfl, fun _ => if_neg fun hc => absurd (ho2.2 fun hh => absurd hc hh) (by simp)⟩⟩
  | true =>
    have hord := ho2.1 rfl
    rw [if_neg (by simp), hread]
    rw [Outcome.ok_bind]
    by_cases hn : s.nmbEvents = 0
    · rw [if_pos hn]
      dsimp only
      rw [if_neg (not_not.2 rfl)]
      refine ⟨true, _, rfl, rfl, rfl, ⟨fun _ => ⟨hwm, hKne, hord, fun h => absurd hn h⟩, fun _ => rfl⟩, fun _ => ⟨?_, rfl, rfl⟩, by simp⟩
      funext v
      simp [Function.update]
    · rw [if_neg hn]
      dsimp only
      by_cases he : K.length = s.nmbEvents
      · rw [if_neg (not_not.2 he)]
        refine ⟨true, _, rfl, rfl, rfl, ⟨fun _ => ⟨hwm, hKne, hord, fun _ => he⟩, fun _ => rfl⟩, fun _ => ⟨?_, he.symm, rfl⟩, by simp⟩
        funext v
        simp [Function.update]
      · rw [if_pos he]
        refine ⟨false, _, rfl, rfl, rfl, ⟨by simp, fun h => absurd (h.2.2.2 hn) he⟩, by simp, fun _ => ⟨rfl, rfl, fun h => if_neg (h.resolve_right hn)⟩⟩

/-- a call of `addAmplitude`: the wave and its amplitude files. -/
structure Add where
  wave : String
  first : List Block
  rest : List (List Block)

/-- all the blocks of a call. -/
def Add.blocks (a : Add) : List Block := (a.first :: a.rest).flatten

/-- run of a sequence of calls, whatever they return. -/
def runAdds (adds : List Add) (s : LikState) : Outcome LikState :=
  adds.foldlM (fun s a => do
    let r ← addAmplitude ((a.first :: a.rest).map (ampFile a.wave)) s
    pure r.2) s

/-- what the state is after calls of `addAmplitude`. -/
structure AddInv (P : Props) (adds : List Add) (s : LikState) : Prop where
  props : s.props = P
  amps : ∀ w a, s.decayAmps w = some a → ∃ d ∈ adds, d.wave = w ∧ d.blocks.map (·.hash) <+: s.order ∧
    (keys P (d.blocks.map (·.hash))).length = s.nmbEvents ∧ a = (keys P (d.blocks.map (·.hash))).map (ampOf d.blocks)
  fresh : s.nmbEvents = 0 → ∀ w, s.decayAmps w = none
  order : s.order = [] → s.nmbEvents = 0

/-- **C48** for every sequence of calls of `addAmplitude`, accepted or refused: the `n`-th amplitudes of any two waves that were loaded belong to the same event. -/
theorem waves_aligned (P : Props) (hP : P ≠ []) (adds : List Add) (hr : ∀ a ∈ adds, ∀ c ∈ a.first :: a.rest, Registered P c)
    (s₀ : LikState) (h0 : s₀.props = P) (h1 : s₀.nmbEvents = 0) (h2 : ∀ w, s₀.decayAmps w = none) :
    ∃ s, runAdds adds s₀ = .ok s ∧
      ∃ ks : List (ℕ × ℕ), ∀ w a, s.decayAmps w = some a → ∃ d ∈ adds, d.wave = w ∧ keys P (d.blocks.map (·.hash)) = ks ∧ a = ks.map (ampOf d.blocks) := by
  have step : ∀ (adds : List Add) (done : List Add) (s : LikState), (∀ a ∈ adds, ∀ c ∈ a.first :: a.rest, Registered P c) → AddInv P done s →
      ∃ s', runAdds adds s = .ok s' ∧ AddInv P (done ++ adds) s' := by
    intro adds
    induction adds with
    | nil => intro done s _ hi; exact ⟨s, rfl, by simpa using hi⟩
    | cons a adds ih =>
      intro done s hreg hi
      obtain ⟨ok, s', e1, e2, e3, e4, e5, e6⟩ := addAmplitude_selected a.wave a.first a.rest s (by rw [hi.props]; exact hP)
        (fun c hc => by rw [hi.props]; exact hreg a List.mem_cons_self c hc)
      have hi' : AddInv P (done ++ [a]) s' := by
        rw [hi.props] at e4 e5
        have hbl : (a.first :: a.rest).flatten = a.blocks := rfl
        rw [hbl] at e4 e5
        cases ok with
        | true =>
          obtain ⟨g1, g2, g3, g4⟩ := e4.1 rfl
          obtain ⟨f1, f2, f3⟩ := e5 rfl
          have hpos : s'.nmbEvents ≠ 0 := by
            rw [f2]; exact fun h => g2 (List.length_eq_zero_iff.1 h)
          refine ⟨e2.trans hi.props, ?_, fun h => absurd h hpos, ?_⟩
          · intro w am hw
            rw [f1] at hw
            by_cases hwa : w = a.wave
            · subst hwa
              rw [Function.update_self] at hw
              refine ⟨a, by simp, rfl, ?_, f2.symm, (Option.some.inj hw).symm⟩
              rw [f3]
              by_cases ho : s.order = []
              · rw [if_pos ho]
              · rw [if_neg ho]; exact g3 ho
            · rw [Function.update_of_ne hwa] at hw
              obtain ⟨d, d1, d2, d3, d4, d5⟩ := hi.amps w am hw
              have hn : s.nmbEvents ≠ 0 := fun h => by rw [hi.fresh h w] at hw; simp at hw
              refine ⟨d, by simp [d1], d2, ?_, ?_, d5⟩
              · rw [f3]
                by_cases ho : s.order = []
                · exact absurd (hi.order ho) hn
                · rw [if_neg ho]; exact d3
              · rw [d4, f2, g4 hn]
          · intro ho
            exfalso
            rw [f3] at ho
            by_cases ho' : s.order = []
            · rw [if_pos ho'] at ho
              rw [ho] at g2
              exact g2 rfl
            · rw [if_neg ho'] at ho
              exact ho' ho
        | false =>
          obtain ⟨k1, k2, k3⟩ := e6 rfl
          have k4 : s'.order = s.order := by
            by_cases ho : s.order = []
            · exact k3 (Or.inr (hi.order ho))
            · exact k3 (Or.inl ho)
          refine ⟨e2.trans hi.props, ?_, ?_, ?_⟩
          · intro w am hw
            rw [k1] at hw
            obtain ⟨d, d1, d2, d3, d4, d5⟩ := hi.amps w am hw
            exact ⟨d, by simp [d1], d2, by rw [k4]; exact d3, by rw [k2]; exact d4, d5⟩
          · intro h w; rw [k1]; exact hi.fresh (by rw [← k2]; exact h) w
          · intro h; rw [k2]; exact hi.order (by rw [← k4]; exact h)
      obtain ⟨s'', q1, q2⟩ := ih (done ++ [a]) s' (fun x hx => hreg x (List.mem_cons_of_mem _ hx)) hi'
      refine ⟨s'', ?_, by simpa using q2⟩
      unfold runAdds at q1 ⊢
      rw [List.foldlM_cons, e1]
      exact q1
  obtain ⟨s, r1, r2⟩ := step adds [] s₀ hr ⟨h0, fun w a h => by rw [h2 w] at h; simp at h, fun _ => h2, fun _ => h1⟩
  refine ⟨s, r1, (keys P s.order).take s.nmbEvents, fun w a hw => ?_⟩
  obtain ⟨d, d1, d2, d3, d4, d5⟩ := r2.amps w a hw
  have hk : keys P (d.blocks.map (·.hash)) = (keys P s.order).take s.nmbEvents := by
    rw [← d4]
    exact List.prefix_iff_eq_take.1 (keys_prefix P d3)
  exact ⟨d, by simpa using d1, d2, hk, by rw [← hk]; exact d5⟩

/-- what `setOnTheFlyBinning` registers, when it succeeds on files with different hashes. -/
theorem setOnTheFlyBinning_registers (val : Dbl → ℝ) (bin : Bin) (ms : List EventMeta) (s s' : LikState)
    (h : setOnTheFlyBinning val bin ms s = (true, s')) (hn : (ms.map (·.contentHash)).Nodup) :
    ∀ m ∈ ms, ∃ t, m.tree = some t ∧ s'.props.lookup m.contentHash = some (t.rows.length, eventIndices val bin t) := by
  have keep : ∀ (ms : List EventMeta) (s s' : LikState) (k : String), k ∉ ms.map (·.contentHash) → setOnTheFlyBinning val bin ms s = (true, s') →
      s'.props.lookup k = s.props.lookup k := by
    intro ms
    induction ms with
    | nil => intro s s' k _ h; rw [setOnTheFlyBinning] at h; rw [(Prod.mk.inj h).2]
    | cons m ms ih =>
      intro s s' k hk h
      rw [setOnTheFlyBinning] at h
      cases ht : m.tree with
      | none => rw [ht] at h; simp at h
      | some t =>
        rw [ht] at h
        rw [List.map_cons, List.mem_cons, not_or] at hk
        rw [ih _ _ k hk.2 h]
        show (mapSet s.props m.contentHash _).lookup k = _
        rw [lookup_mapSet, if_neg hk.1]
  induction ms generalizing s with
  | nil => intro m hm; simp at hm
  | cons m ms ih =>
    rw [setOnTheFlyBinning] at h
    rw [List.map_cons, List.nodup_cons] at hn
    cases ht : m.tree with
    | none => rw [ht] at h; simp at h
    | some t =>
      rw [ht] at h
      intro x hx
      rcases List.mem_cons.1 hx with rfl | hx
      · refine ⟨t, ht, ?_⟩
        rw [keep ms _ s' _ hn.1 h]
        show (mapSet s.props _ _).lookup _ = _
        rw [lookup_mapSet, if_pos rfl]
      · exact ih _ h hn.2 x hx

/-- **C48** together: after `setOnTheFlyBinning` with the event files, loading the amplitudes of these files gives the amplitudes of exactly the events in the bin. -/
theorem binned_amplitudes (val : Dbl → ℝ) (bin : Bin) (ms : List EventMeta) (hne : ms ≠ []) (s s₁ : LikState)
    (h : setOnTheFlyBinning val bin ms s = (true, s₁)) (hn : (ms.map (·.contentHash)).Nodup)
    (w : String) (amp : EventMeta → List ℂ) (hamp : ∀ m ∈ ms, ∀ t, m.tree = some t → (amp m).length = t.rows.length) :
    ∃ ok s', addAmplitude [ampFile w (ms.map fun m => ⟨m.contentHash, amp m⟩)] s₁ = .ok (ok, s') ∧
      (ok = true → s'.decayAmps w = some (ms.flatMap fun m => match m.tree with
        | some t => (eventIndices val bin t).map fun i => (amp m).getD i 0
        | none => [])) := by
  have hreg := setOnTheFlyBinning_registers val bin ms s s₁ h hn
  have hR : Registered s₁.props (ms.map fun m => ⟨m.contentHash, amp m⟩) := by
    intro b hb
    obtain ⟨m, hm, rfl⟩ := List.mem_map.1 hb
    obtain ⟨t, ht, hl⟩ := hreg m hm
    refine ⟨eventIndices val bin t, by rw [hl, hamp m hm t ht], ?_⟩
    intro i hi
    obtain ⟨r, hr, -⟩ := ((eventIndices_spec val bin t).1 i).1 hi
    show i < (amp m).length
    rw [hamp m hm t ht]
    exact (List.getElem?_eq_some_iff.1 hr).1
  have hp : s₁.props ≠ [] := by
    intro hc
    obtain ⟨m, hm⟩ := List.exists_mem_of_ne_nil ms hne
    obtain ⟨t, ht, hl⟩ := hreg m hm
    rw [hc] at hl
    simp at hl
  obtain ⟨ok, s', e1, _, _, _, e5, _⟩ := addAmplitude_selected w (ms.map fun m => ⟨m.contentHash, amp m⟩) [] s₁ hp (fun c hc => by
    rw [List.mem_singleton] at hc; rw [hc]; exact hR)
  refine ⟨ok, s', e1, fun hok => ?_⟩
  rw [(e5 hok).1, Function.update_self]
  have hf : ([ms.map fun m => (⟨m.contentHash, amp m⟩ : Block)] : List (List Block)).flatten = ms.map fun m => ⟨m.contentHash, amp m⟩ := by simp
  rw [hf, keys_eq, List.flatMap_map]
  refine congrArg some (List.flatMap_congr fun m hm => ?_)
  obtain ⟨t, ht, hl⟩ := hreg m hm
  rw [ht]
  show ((get s₁.props m.contentHash).2.map fun i => (amp m).getD i 0) = _
  unfold get
  rw [hl]
  rfl

/-- witness: an amplitude file that refers to an event file unknown to the binning is not refused: `operator[]` has created the map element before it is
looked up, and the amplitudes of the next event file are read at the wrong position. The amplitudes 1, 2 belong to file A, 3, 4 to file B, whose events are all in the bin. -/
theorem unknown_file_misaligns :
    ∃ s', addAmplitude [ampFile "w" [⟨"A", [1, 2]⟩, ⟨"B", [3, 4]⟩]] ⟨["w"], [("B", (2, [0, 1]))], [], 0, fun _ => none⟩ = .ok (true, s') ∧
      s'.decayAmps "w" = some [1, 2] := by
  refine ⟨_, rfl, ?_⟩
  rfl

/-- non-vacuity of `waves_aligned` and `addAmplitude_selected`: two event files, two waves. -/
example : ∃ s', runAdds [⟨"w", [⟨"A", [1, 2]⟩, ⟨"B", [3, 4]⟩], []⟩, ⟨"v", [⟨"A", [5, 6]⟩], [[⟨"B", [7, 8]⟩]]⟩]
      ⟨["w", "v"], [("A", (2, [1])), ("B", (2, [0, 1]))], [], 0, fun _ => none⟩ = .ok s' ∧
      s'.decayAmps "w" = some [2, 3, 4] ∧ s'.decayAmps "v" = some [6, 7, 8] := ⟨_, rfl, rfl, rfl⟩

end Rpwa.Otf
