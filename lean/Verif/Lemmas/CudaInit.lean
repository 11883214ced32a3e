import Verif.Lemmas.CudaDeriv
import Verif.Spec.CudaLik
/-! Loading of the decay amplitudes; the CUDA branches of `pwaLikelihood`. -/
namespace Rpwa.Cuda
open Rpwa.Lik

/-- a loop of assignments to different elements of a host array. -/
theorem setLoop {ι : Type} (pos : ι → ℕ) (val : ι → ℂ) (body : List ℂ → ι → Outcome (List ℂ)) (n : ℕ) :
    ∀ (l : List ι) (_ : l.Nodup) (_ : ∀ i ∈ l, ∀ j ∈ l, pos i = pos j → i = j) (_ : ∀ i ∈ l, pos i < n)
      (_ : ∀ i ∈ l, ∀ xs : List ℂ, xs.length = n → body xs i = .ok (xs.set (pos i) (val i))) (xs : List ℂ), xs.length = n →
      ∃ ys, l.foldlM body xs = .ok ys ∧ ys.length = n ∧ (∀ i ∈ l, ys[pos i]? = some (val i)) ∧
        (∀ o, (∀ i ∈ l, pos i ≠ o) → ys[o]? = xs[o]?) := by
  intro l
  induction l with
  | nil => intro _ _ _ _ xs hx; exact ⟨xs, rfl, hx, fun i hi => by simp at hi, fun _ _ => rfl⟩
  | cons a l ih =>
    intro hn hinj hlt hbody xs hx
    rw [List.nodup_cons] at hn
    obtain ⟨ys, h1, h2, h3, h4⟩ := ih hn.2 (fun i hi j hj => hinj i (List.mem_cons_of_mem _ hi) j (List.mem_cons_of_mem _ hj))
      (fun i hi => hlt i (List.mem_cons_of_mem _ hi)) (fun i hi => hbody i (List.mem_cons_of_mem _ hi)) (xs.set (pos a) (val a)) (by simpa using hx)
    have ha := hlt a (List.mem_cons_self ..)
    refine ⟨ys, ?_, h2, ?_, ?_⟩
    · rw [List.foldlM_cons, hbody a (List.mem_cons_self ..) xs hx, Outcome.ok_bind, h1]
    · intro i hi
      rcases List.mem_cons.mp hi with rfl | hi
      · rw [h4]
        · rw [List.getElem?_set_self (by omega)]
        · intro j hj e
          have := hinj j (List.mem_cons_of_mem _ hj) i (List.mem_cons_self ..) e
          exact hn.1 (this ▸ hj)
      · exact h3 i hi
    · intro o ho
      rw [h4 o (fun i hi => ho i (List.mem_cons_of_mem _ hi)), List.getElem?_set_ne (ho a (List.mem_cons_self ..))]

/-- position of `(iRefl, iWave, iEvt)` in the array of decay amplitudes. -/
abbrev decayPos (L : LikData) (i : ℕ × ℕ × ℕ) : ℕ := (i.1 * wMax L + i.2.1) * L.nmbEvents + i.2.2

/-- valid indices. -/
def ValidIdx (L : LikData) (i : ℕ × ℕ × ℕ) : Prop := i.1 < 2 ∧ i.2.1 < L.nW i.1 ∧ i.2.2 < L.nmbEvents

theorem decayPos_inj {L : LikData} {i j : ℕ × ℕ × ℕ} (hi : ValidIdx L i) (hj : ValidIdx L j) (e : decayPos L i = decayPos L j) : i = j := by
  obtain ⟨h1, h2⟩ := mixed_inj hi.2.2 hj.2.2 e
  obtain ⟨h3, h4⟩ := mixed_inj (lt_of_lt_of_le hi.2.1 (nW_le L hi.1)) (lt_of_lt_of_le hj.2.1 (nW_le L hj.1)) h1
  exact Prod.ext h3 (Prod.ext h4 h2)

theorem decayPos_lt {L : LikData} {i : ℕ × ℕ × ℕ} (hi : ValidIdx L i) : decayPos L i < 2 * wMax L * L.nmbEvents :=
  mixed_lt (mixed_lt hi.1 (lt_of_lt_of_le hi.2.1 (nW_le L hi.1))) hi.2.2

theorem decayOffset {L : LikData} {i : ℕ × ℕ × ℕ} (hi : ValidIdx L i) (hs : 2 * wMax L * L.nmbEvents ≤ 2 ^ 32) :
    indicesToOffset [i.1, i.2.1, i.2.2] [2, wMax L, L.nmbEvents] = decayPos L i :=
  (offset3 hi.1 (lt_of_lt_of_le hi.2.1 (nW_le L hi.1)) hi.2.2 hs).1

theorem nodup_triples {nW : ℕ → ℕ} {A : ℕ} :
    ((List.range A).flatMap fun n => (List.range 2).flatMap fun e => (List.range (nW e)).map fun w => (e, w, n)).Nodup := by
  rw [List.nodup_flatMap]
  refine ⟨fun r _ => ?_, ?_⟩
  · rw [List.nodup_flatMap]
    refine ⟨fun e _ => List.nodup_range.map fun a b h => by simpa using h, ?_⟩
    refine List.Nodup.pairwise_of_forall_ne List.nodup_range ?_
    intro e _ e' _ hne
    rw [Function.onFun, List.disjoint_left]
    intro s hs hs'
    obtain ⟨w, _, rfl⟩ := List.mem_map.mp hs
    obtain ⟨w', _, h⟩ := List.mem_map.mp hs'
    simp only [Prod.mk.injEq] at h
    exact hne h.1.symm
  · refine List.Nodup.pairwise_of_forall_ne List.nodup_range ?_
    intro r _ r' _ hne
    rw [Function.onFun, List.disjoint_left]
    intro s hs hs'
    obtain ⟨e, _, hs⟩ := List.mem_flatMap.mp hs
    obtain ⟨e', _, hs'⟩ := List.mem_flatMap.mp hs'
    obtain ⟨w, _, rfl⟩ := List.mem_map.mp hs
    obtain ⟨w', _, h⟩ := List.mem_map.mp hs'
    simp only [Prod.mk.injEq] at h
    exact hne h.2.2.symm

theorem nodup_reshuffle (nW : ℕ → ℕ) (N : ℕ) : (reshuffleLoop nW N).Nodup := by
  unfold reshuffleLoop
  rw [List.nodup_flatMap]
  refine ⟨fun e _ => ?_, ?_⟩
  · rw [List.nodup_flatMap]
    refine ⟨fun w _ => List.nodup_range.map fun a b h => by simpa using h, ?_⟩
    refine List.Nodup.pairwise_of_forall_ne List.nodup_range ?_
    intro e _ e' _ hne
    rw [Function.onFun, List.disjoint_left]
    intro s hs hs'
    obtain ⟨w, _, rfl⟩ := List.mem_map.mp hs
    obtain ⟨w', _, h⟩ := List.mem_map.mp hs'
    simp only [Prod.mk.injEq] at h
    exact hne h.2.1.symm
  · refine List.Nodup.pairwise_of_forall_ne List.nodup_range ?_
    intro r _ r' _ hne
    rw [Function.onFun, List.disjoint_left]
    intro s hs hs'
    obtain ⟨e, _, hs⟩ := List.mem_flatMap.mp hs
    obtain ⟨e', _, hs'⟩ := List.mem_flatMap.mp hs'
    obtain ⟨w, _, rfl⟩ := List.mem_map.mp hs
    obtain ⟨w', _, h⟩ := List.mem_map.mp hs'
    simp only [Prod.mk.injEq] at h
    exact hne h.1.symm

/-- the host array holds the decay amplitudes in the layout of the device. -/
def HostDecay (L : LikData) (xs : List ℂ) : Prop :=
  xs.length = 2 * wMax L * L.nmbEvents ∧ ∀ i, ValidIdx L i → xs[decayPos L i]? = some (L.decayAmps i.1 i.2.2 i.2.1)

theorem decayAmpsArray_spec {L : LikData} (hs : 2 * wMax L * L.nmbEvents < 2 ^ 32) (hm : L.nmbEvents ≠ 0 → 2 * wMax L < 2 ^ 32) :
    u32 (u32 (2 * wMax L) * L.nmbEvents) = 2 * wMax L * L.nmbEvents ∧ ∃ xs, decayAmpsArray L = .ok xs ∧ HostDecay L xs := by
  have hu : u32 (u32 (2 * wMax L) * L.nmbEvents) = 2 * wMax L * L.nmbEvents := by
    by_cases h0 : L.nmbEvents = 0
    · rw [h0]; rfl
    · rw [u32_of_lt (hm h0), u32_of_lt hs]
  refine ⟨hu, ?_⟩
  have hval : ∀ i ∈ ((List.range L.nmbEvents).flatMap fun n => (List.range 2).flatMap fun e => (List.range (L.nW e)).map fun w => (e, w, n)), ValidIdx L i := by
    intro i hi
    obtain ⟨n, hn, hi⟩ := List.mem_flatMap.mp hi
    obtain ⟨e, he, hi⟩ := List.mem_flatMap.mp hi
    obtain ⟨w, hw, rfl⟩ := List.mem_map.mp hi
    exact ⟨List.mem_range.mp he, List.mem_range.mp hw, List.mem_range.mp hn⟩
  obtain ⟨ys, h1, h2, h3, _⟩ := setLoop (decayPos L) (fun i => L.decayAmps i.1 i.2.2 i.2.1)
    (fun a i => setHost a (indicesToOffset [i.1, i.2.1, i.2.2] [2, wMax L, L.nmbEvents]) (L.decayAmps i.1 i.2.2 i.2.1))
    (2 * wMax L * L.nmbEvents) _ nodup_triples (fun i hi j hj e => decayPos_inj (hval i hi) (hval j hj) e) (fun i hi => decayPos_lt (hval i hi))
    (by
      intro i hi xs hx
      rw [decayOffset (hval i hi) (le_of_lt hs)]
      unfold setHost
      rw [if_pos (by rw [hx]; exact decayPos_lt (hval i hi))])
    (List.replicate (2 * wMax L * L.nmbEvents) 0) (by simp)
  refine ⟨ys, ?_, h2, ?_⟩
  · unfold decayAmpsArray
    dsimp only
    rw [hu]
    exact h1
  · intro i hi
    refine h3 i ?_
    exact List.mem_flatMap.mpr ⟨i.2.2, List.mem_range.mpr hi.2.2, List.mem_flatMap.mpr ⟨i.1, List.mem_range.mpr hi.1,
      List.mem_map.mpr ⟨i.2.1, List.mem_range.mpr hi.2.1, rfl⟩⟩⟩

theorem reshuffle_spec {L : LikData} {xs : List ℂ} (hs : 2 * wMax L * L.nmbEvents ≤ 2 ^ 32)
    (hx : ∀ i, ValidIdx L i → xs[(i.2.2 * 2 + i.1) * wMax L + i.2.1]? = some (L.decayAmps i.1 i.2.2 i.2.1)) :
    ∃ ys, reshuffle xs (2 * wMax L * L.nmbEvents) L.nmbEvents (nmbWavesRefl (L.nW 0) (L.nW 1)) (wMax L) = .ok ys ∧ HostDecay L ys := by
  have hval : ∀ i ∈ reshuffleLoop (nmbWavesRefl (L.nW 0) (L.nW 1)) L.nmbEvents, ValidIdx L i := by
    intro i hi
    obtain ⟨e, he, hi⟩ := List.mem_flatMap.mp hi
    obtain ⟨w, hw, hi⟩ := List.mem_flatMap.mp hi
    obtain ⟨n, hn, rfl⟩ := List.mem_map.mp hi
    have he := List.mem_range.mp he
    rw [nW_eq L he] at hw
    exact ⟨he, List.mem_range.mp hw, List.mem_range.mp hn⟩
  obtain ⟨ys, h1, h2, h3, _⟩ := setLoop (decayPos L) (fun i => L.decayAmps i.1 i.2.2 i.2.1)
    (fun h i => do
      let offsetOld := indicesToOffset [i.2.2, i.1, i.2.1] [L.nmbEvents, 2, wMax L]
      let offsetNew := indicesToOffset [i.1, i.2.1, i.2.2] [2, wMax L, L.nmbEvents]
      let z ← getHost xs offsetOld
      setHost h offsetNew z)
    (2 * wMax L * L.nmbEvents) _ (nodup_reshuffle _ _) (fun i hi j hj e => decayPos_inj (hval i hi) (hval j hj) e) (fun i hi => decayPos_lt (hval i hi))
    (by
      intro i hi zs hz
      have hv := hval i hi
      dsimp only
      have hs' : L.nmbEvents * 2 * wMax L ≤ 2 ^ 32 := by
        have : L.nmbEvents * 2 * wMax L = 2 * wMax L * L.nmbEvents := by ring
        omega
      rw [decayOffset hv hs, (offset3 hv.2.2 hv.1 (lt_of_lt_of_le hv.2.1 (nW_le L hv.1)) hs').1]
      unfold getHost
      rw [hx i hv]
      show setHost zs _ _ = _
      unfold setHost
      rw [if_pos (by rw [hz]; exact decayPos_lt hv)])
    (List.replicate (2 * wMax L * L.nmbEvents) 0) (by simp)
  refine ⟨ys, h1, h2, ?_⟩
  intro i hi
  refine h3 i ?_
  refine List.mem_flatMap.mpr ⟨i.1, List.mem_range.mpr hi.1, List.mem_flatMap.mpr ⟨i.2.1, ?_, List.mem_map.mpr ⟨i.2.2, List.mem_range.mpr hi.2.2, rfl⟩⟩⟩
  rw [nW_eq L hi.1]
  exact List.mem_range.mpr hi.2.1

theorem Hardware.good {env : Env} (h : Hardware env) : GoodProp env env.prop := ⟨h.warp, h.mp, h.block, h.size⟩

theorem SizesOk.fits {env : Env} {L : LikData} (h : SizesOk env L) : Fits env L env.prop :=
  ⟨h.prodAmps, by have : 2 * wMax L * L.nmbEvents * 16 < 2 ^ 32 := h.decayAmps; omega, h.events, h.terms, h.sums⟩

/-- copy of `n` amplitudes to a new device array. -/
theorem copy_new {d : Dev} {xs : List ℂ} {n : ℕ} (hx : xs.length = n) (d0 : ℕ) :
    copyToDevice 16 d.next xs n { d with heap := Function.update d.heap d.next (some ⟨n, fun _ => none⟩), next := d.next + 1, decayAmps := d0 } =
      .ok ((), { d with heap := Function.update d.heap d.next (some ⟨n, fun o => if o < n then xs[o]?.map Val.cx else none⟩), next := d.next + 1, decayAmps := d0 }) := by
  unfold copyToDevice
  dsimp only
  rw [Function.update_self]
  dsimp only
  rw [if_neg (by rw [hx]; omega), Function.update_idem]

theorem hasDecay_new {L : LikData} {h : Heap} {p : ℕ} {xs : List ℂ} (hx : HostDecay L xs)
    (hb : h p = some ⟨2 * wMax L * L.nmbEvents, fun o => if o < 2 * wMax L * L.nmbEvents then xs[o]?.map Val.cx else none⟩) : HasDecay h p L := by
  intro e w n he hw hn
  have hv : ValidIdx L (e, w, n) := ⟨he, hw, hn⟩
  have hlt := decayPos_lt hv
  rw [get_of_block hb hlt]
  dsimp only
  rw [if_pos hlt]
  have := hx.2 _ hv
  dsimp only at this
  rw [this]
  rfl

/-- `loadDecayAmps` on an initialised device. -/
theorem loadDecayAmps_spec {env : Env} {L : LikData} {d : Dev} (hH : Hardware env) (hs : 2 * wMax L * L.nmbEvents * 16 < 2 ^ 32) (hW : WF d)
    (hi : d.initialized = true) (hp : d.prop = env.prop) (xs ys : List ℂ) (resh : Bool) (hx : HostDecay L ys)
    (hsrc : if resh then reshuffle xs (2 * wMax L * L.nmbEvents) L.nmbEvents (nmbWavesRefl (L.nW 0) (L.nW 1)) (wMax L) = .ok ys else xs = ys) :
    ∃ d', loadDecayAmps 16 xs (2 * wMax L * L.nmbEvents) L.nmbEvents (L.nW 0) (L.nW 1) resh d = .ok (true, d') ∧ Loaded env L d' ∧
      d'.prop = env.prop ∧ d'.initialized = true ∧ d.next < d'.next ∧ (∀ p, p < d.next → d'.heap p = d.heap p) ∧ d'.decayAmps = d.next ∧
      (∀ p, p ≠ d.next → d'.heap p = d.heap p) ∧ d'.live d.next = some (2 * wMax L * L.nmbEvents) := by
  have ha := allocElems_eq hs
  let b : Block := ⟨2 * wMax L * L.nmbEvents, fun o => if o < 2 * wMax L * L.nmbEvents then ys[o]?.map Val.cx else none⟩
  let d1 : Dev := { d with nmbEvents := L.nmbEvents, nW0 := L.nW 0, nW1 := L.nW 1, nWMax := wMax L }
  let d2 : Dev := { d1 with heap := Function.update d.heap d.next (some b), next := d.next + 1, decayAmps := d.next }
  refine ⟨d2, ?_, ?_, hp, hi, Nat.lt_succ_self _, ?_, rfl, ?_, ?_⟩
  · unfold loadDecayAmps
    refine (bind_ok (a := d) (d' := d) rfl).trans ?_
    rw [hi]
    dsimp only
    rw [if_neg (by decide)]
    refine (bind_ok (a := ()) (d' := d1) rfl).trans ?_
    have esrc : ((if resh = true then StateT.lift (reshuffle xs (2 * wMax L * L.nmbEvents) L.nmbEvents (nmbWavesRefl (L.nW 0) (L.nW 1)) (wMax L))
        else pure xs : Host (List ℂ))) d1 = .ok (ys, d1) := by
      cases resh with
      | true =>
        rw [if_pos rfl] at hsrc ⊢
        show (reshuffle _ _ _ _ _ >>= fun a => pure (a, d1)) = _
        rw [hsrc]
        rfl
      | false =>
        rw [if_neg (by decide)] at hsrc ⊢
        rw [hsrc]
        rfl
    refine (bind_ok esrc).trans ?_
    rw [ha]
    refine (bind_ok (a := d.next) rfl).trans ?_
    refine (bind_ok (a := ()) rfl).trans ?_
    have e16 : (if resh = true then 16 else 16) = 16 := by split <;> rfl
    rw [e16]
    refine (bind_ok (a := ()) (d' := d2) ?_).trans rfl
    exact copy_new (d := d1) hx.1 d.next
  · have hpos := hW.pos
    refine ⟨?_, by rw [show d2.prop = env.prop from hp]; exact hH.good, rfl, rfl, rfl, rfl, Nat.lt_succ_self _, hasDecay_new hx (Function.update_self ..)⟩
    refine ⟨?_, ?_, Nat.succ_pos _⟩
    · intro q hq
      have hq : d.next + 1 ≤ q := hq
      show Function.update d.heap d.next (some b) q = none
      rw [Function.update_of_ne (by omega), hW.fresh q (by omega)]
    · show Function.update d.heap d.next (some b) 0 = none
      rw [Function.update_of_ne (by omega), hW.null]
  · intro p hp'
    exact Function.update_of_ne (by omega) _ _
  · intro p hp'
    exact Function.update_of_ne hp' _ _
  · show (Function.update d.heap d.next (some b) d.next).map Block.len = _
    rw [Function.update_self]
    rfl

theorem wMax_small {env : Env} {L : LikData} (hS : SizesOk env L) (h : L.nmbEvents ≠ 0) : 2 * wMax L < 2 ^ 32 := by
  have : 2 * wMax L * L.nmbEvents * 16 < 2 ^ 32 := hS.decayAmps
  have h2 : 2 * wMax L ≤ 2 * wMax L * L.nmbEvents := Nat.le_mul_of_pos_right _ (by omega)
  omega

end Rpwa.Cuda
