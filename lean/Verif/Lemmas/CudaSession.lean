import Verif.Lemmas.CudaDeriv
import Verif.Lemmas.CudaInit
/-! Initialisation, function and gradient calls of the likelihood with CUDA. -/
namespace Rpwa.Cuda
open Rpwa.Lik

theorem lift_ok {α : Type} {x : Outcome α} {a : α} {d : Dev} (h : x = .ok a) : (StateT.lift x : Host α) d = .ok (a, d) := by
  rw [h]; rfl

/-- `init` of the interface with a host array in the device layout (or, with `resh`, one that is reshuffled into it). -/
theorem init_spec {env : Env} {L : LikData} {d : Dev} (hH : Hardware env) (hs : 2 * wMax L * L.nmbEvents * 16 < 2 ^ 32) (hW : WF d)
    (xs ys : List ℂ) (resh : Bool) (hx : HostDecay L ys)
    (hsrc : if resh then reshuffle xs (2 * wMax L * L.nmbEvents) L.nmbEvents (nmbWavesRefl (L.nW 0) (L.nW 1)) (wMax L) = .ok ys else xs = ys) :
    ∃ d', init env 16 xs (2 * wMax L * L.nmbEvents) L.nmbEvents (L.nW 0) (L.nW 1) resh d = .ok (true, d') ∧ Loaded env L d' ∧
      d'.prop = env.prop ∧ d'.initialized = true ∧ d'.decayAmps = d.next ∧ (∀ p, p ≠ d.next → d'.heap p = d.heap p) ∧
      d'.live d.next = some (2 * wMax L * L.nmbEvents) := by
  let d1 : Dev := { d with initialized := true, prop := env.prop }
  have e1 : initCudaDevice env d = .ok (true, d1) := by
    unfold initCudaDevice
    rw [if_neg (by have := hH.device; omega)]
  obtain ⟨d', h1, h2, h3, h4, _, _, h5, h6, h7⟩ := loadDecayAmps_spec (d := d1) hH hs ⟨hW.fresh, hW.null, hW.pos⟩ rfl rfl xs ys resh hx hsrc
  refine ⟨d', ?_, h2, h3, h4, h5, h6, h7⟩
  unfold init
  refine (bind_ok e1).trans ?_
  rw [if_neg (by decide)]
  exact h1

theorem initLikelihood_spec {env : Env} {L : LikData} {d : Dev} (hH : Hardware env) (hS : SizesOk env L) (hW : WF d) :
    ∃ d', initLikelihood env 16 L d = .ok ((), d') ∧ Loaded env L d' ∧ d'.prop = env.prop ∧ d'.initialized = true ∧ d'.decayAmps = d.next ∧
      (∀ p, p ≠ d.next → d'.heap p = d.heap p) ∧ d'.live d.next = some (2 * wMax L * L.nmbEvents) := by
  have hs : 2 * wMax L * L.nmbEvents * 16 < 2 ^ 32 := hS.decayAmps
  obtain ⟨hu, xs, e1, hx⟩ := decayAmpsArray_spec (L := L) (by omega) (wMax_small hS)
  obtain ⟨d', h1, hrest⟩ := init_spec (d := d) hH hs hW xs xs false hx (by rw [if_neg (by decide)])
  refine ⟨d', ?_, hrest⟩
  unfold initLikelihood
  refine (bind_ok (lift_ok e1)).trans ?_
  rw [show u32 (u32 (2 * max (L.nW 0) (L.nW 1)) * L.nmbEvents) = _ from hu]
  exact (bind_ok h1).trans rfl

theorem eval_spec {env : Env} {L : LikData} {d : Dev} (hL : Loaded env L d) (hF : Fits env L d.prop) (par : ℕ → ℝ) :
    ∃ next' l', d.next ≤ next' ∧ doEvalCuda env 16 L par d = .ok (L.doEval par, { d with next := next', launches := l' }) := by
  obtain ⟨n', l', hn, e⟩ := logLikelihood_spec hL hF (copyFromParArray L.rank L.nW par).1 (copyFromParArray L.rank L.nW par).2
  refine ⟨n', l', hn, ?_⟩
  unfold doEvalCuda
  refine (bind_ok e).trans ?_
  rfl

theorem mapM_ok {α β : Type} {f : α → Outcome β} {g : α → β} : ∀ l : List α, (∀ a ∈ l, f a = .ok (g a)) → l.mapM f = .ok (l.map g) := by
  intro l
  induction l with
  | nil => intro _; rfl
  | cons a l ih =>
    intro h
    rw [List.mapM_cons, h a (by simp), ih fun b hb => h b (by simp [hb])]
    rfl

theorem find_map {α β : Type} [BEq α] [LawfulBEq α] (g : α → β) : ∀ (l : List α) (a : α), a ∈ l →
    ((l.map fun s => (s, g s)).find? fun x => x.1 == a).map (·.2) = some (g a) := by
  intro l
  induction l with
  | nil => intro a h; simp at h
  | cons b l ih =>
    intro a h
    rw [List.map_cons, List.find?_cons]
    rcases Classical.em (b = a) with hb | hb
    · subst hb
      simp
    · have : ((b, g b).1 == a) = false := by simpa using hb
      rw [this]
      exact ih a (by simpa [Ne.symm hb] using h)

theorem copyTo_congr {rank : ℕ} {nW : ℕ → ℕ} {pd : ParData} {a b : Amps} {flat : ℝ} {out : ℕ → ℝ} (h : ∀ s ∈ slots rank nW, a s = b s) :
    copyToParArray rank nW pd a flat out = copyToParArray rank nW pd b flat out := by
  unfold copyToParArray
  have : ∀ (l : List Slot) (o : ℕ → ℝ), (∀ s ∈ l, a s = b s) → l.foldl (copyToStep pd.map a) o = l.foldl (copyToStep pd.map b) o := by
    intro l
    induction l with
    | nil => intro o _; rfl
    | cons s l ih =>
      intro o hl
      rw [List.foldl_cons, List.foldl_cons]
      have : copyToStep pd.map a o s = copyToStep pd.map b o s := by
        unfold copyToStep
        rw [hl s (by simp)]
      rw [this]
      exact ih _ fun t ht => hl t (by simp [ht])
  rw [this _ _ h]

theorem gradient_spec {env : Env} {L : LikData} {d : Dev} (hL : Loaded env L d) (hF : Fits env L d.prop) (pd : ParData) (par out : ℕ → ℝ) :
    ∃ next' l', d.next ≤ next' ∧
      gradientCuda env 16 L pd par out d = .ok (L.gradient pd par out, { d with rank := L.rank, next := next', launches := l' }) := by
  obtain ⟨xs, n', l', hx, hn, e⟩ := logLikelihoodDeriv_spec hL hF (copyFromParArray L.rank L.nW par).1 (copyFromParArray L.rank L.nW par).2
  refine ⟨n', l', hn, ?_⟩
  unfold gradientCuda
  refine (bind_ok e).trans ?_
  refine (bind_ok (lift_ok (mapM_ok (g := fun s => (s, L.derivatives (copyFromParArray L.rank L.nW par).1 (copyFromParArray L.rank L.nW par).2 s)) _ ?_))).trans ?_
  · intro s hs
    rw [hx.2 s hs]
    rfl
  · refine congrArg (fun g => Outcome.ok (g, _)) ?_
    unfold LikData.gradient
    refine (copyTo_congr (b := L.derivatives (copyFromParArray L.rank L.nW par).1 (copyFromParArray L.rank L.nW par).2) ?_).trans rfl
    intro s hs
    rw [find_map _ _ s hs]
    rfl

theorem Loaded.counters {env : Env} {L : LikData} {d : Dev} (hL : Loaded env L d) {n' l' : ℕ} (hn : d.next ≤ n') :
    Loaded env L { d with next := n', launches := l' } :=
  ⟨⟨fun q hq => hL.wf.fresh q (le_trans hn hq), hL.wf.null, lt_of_lt_of_le hL.wf.pos hn⟩, hL.prop, hL.nmbEvents, hL.nW0, hL.nW1, hL.nWMax,
    lt_of_lt_of_le hL.old hn, hL.decay⟩

theorem Loaded.setRank {env : Env} {L : LikData} {d : Dev} (hL : Loaded env L d) (r : ℕ) : Loaded env L { d with rank := r } :=
  ⟨⟨hL.wf.fresh, hL.wf.null, hL.wf.pos⟩, hL.prop, hL.nmbEvents, hL.nW0, hL.nW1, hL.nWMax, hL.old, hL.decay⟩

theorem WF.start : WF Dev.start := ⟨fun _ _ => rfl, rfl, Nat.one_pos⟩

/-- invariant of a session. -/
theorem Session.loaded {env : Env} {L : LikData} {d : Dev} (hH : Hardware env) (hS : SizesOk env L) (h : Session env L d) :
    Loaded env L d ∧ d.prop = env.prop ∧ (∀ p, p ≠ 1 → d.heap p = none) ∧ d.live 1 = some (2 * wMax L * L.nmbEvents) := by
  induction h with
  | init e =>
    obtain ⟨d', h1, h2, h3, _, _, h6, h7⟩ := initLikelihood_spec (d := Dev.start) hH hS WF.start
    rw [h1] at e
    cases e
    exact ⟨h2, h3, h6, h7⟩
  | @eval d d' par x h e ih =>
    obtain ⟨hL, hp, h1, h2⟩ := ih
    obtain ⟨n', l', hn, he⟩ := eval_spec hL (hp ▸ hS.fits) par
    rw [he] at e
    cases e
    exact ⟨hL.counters hn, hp, h1, h2⟩
  | @gradient d d' pd par out g h e ih =>
    obtain ⟨hL, hp, h1, h2⟩ := ih
    obtain ⟨n', l', hn, he⟩ := gradient_spec hL (hp ▸ hS.fits) pd par out
    rw [he] at e
    cases e
    exact ⟨(hL.setRank L.rank).counters hn, hp, h1, h2⟩

end Rpwa.Cuda
