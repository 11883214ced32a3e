import Verif.Model.GenSample
import Verif.Props.ImportanceSampler
/-! # C109: the number of generated events -/
namespace Rpwa.ISamp

open Rpwa.Phys Rpwa.Gen Rpwa.Gen.Spec Rpwa.ISamp.Spec

/-- all that is drawn is possible: points inside of the limits, a beam particle and a `t'`. -/
def Possible (s : Sampler) (draw : ℕ → ℕ → Draw) : Prop :=
  2 ≤ s.masses.length ∧ ∀ it c, (∃ M k phi, PointOf s.masses (draw it c).point M k phi ∧ ValidMasses s.masses.length (fun i => s.masses.getD i 0) M) ∧
    (∃ b, (draw it c).beam = some b) ∧ ∃ t, (draw it c).tPrime = some t

theorem runCalls_length (s : Sampler) (lag : ℕ) (hlag : 0 < lag) (store : Bool) (draw : ℕ → ℕ → Draw) (hp : Possible s draw) (l : List (ℕ × ℕ)) :
    ∃ evs, runCalls s lag store draw l = .ok evs ∧ evs.length = l.countP fun x => decide (lag ∣ x.1) := by
  induction l with
  | nil => exact ⟨[], rfl, rfl⟩
  | cons x xs ih =>
    obtain ⟨evs, e1, e2⟩ := ih
    obtain ⟨⟨M, k, phi, h1, h2⟩, ⟨b, hb⟩, t, ht⟩ := hp.2 x.1 x.2
    obtain ⟨pairs, ev, o1, o2⟩ := (stored_iff s hp.1 h1 h2 ⟨true, 1, x.1, lag, store⟩ (draw x.1 x.2).beam (draw x.1 x.2).tPrime (draw x.1 x.2).mt
      (draw x.1 x.2).mr (draw x.1 x.2).az).2.1 hlag b t hb ht
    refine ⟨ev.toList ++ evs, ?_, ?_⟩
    · unfold runCalls
      dsimp only
      rw [o1, Outcome.ok_bind, e1, Outcome.ok_bind]
    · rw [List.length_append, e2, List.countP_cons]
      dsimp only at o2
      by_cases hd : lag ∣ x.1
      · obtain ⟨v, rfl⟩ := Option.isSome_iff_exists.1 (o2.2 ⟨rfl, by norm_num, hd⟩)
        simp [hd]
        omega
      · cases ev with
        | none => simp [hd]
        | some v => exact absurd (o2.1 rfl).2.2 hd

theorem countP_calls (start n nChains lag : ℕ) :
    (calls start n nChains).countP (fun x => decide (lag ∣ x.1)) = (List.range' start n).countP (fun it => decide (lag ∣ it)) * nChains := by
  unfold calls
  induction List.range' start n with
  | nil => simp
  | cons it l ih =>
    rw [List.flatMap_cons, List.countP_append, ih, List.countP_cons]
    by_cases h : lag ∣ it <;> simp [h, List.countP_map, Function.comp_def, Nat.add_mul] <;> omega

theorem count_multiples (lag : ℕ) (hlag : 0 < lag) (start : ℕ) : (List.range' start lag).countP (fun it => decide (lag ∣ it)) = 1 := by
  induction start with
  | zero =>
    obtain ⟨k, rfl⟩ : ∃ k, lag = k + 1 := ⟨lag - 1, by omega⟩
    rw [List.range'_succ, List.countP_cons]
    have : (List.range' (0 + 1) k).countP (fun it => decide (k + 1 ∣ it)) = 0 := by
      rw [List.countP_eq_zero]
      intro a ha
      have := List.mem_range'_1.1 ha
      have : ¬ (k + 1 ∣ a) := fun hd => by have := Nat.le_of_dvd (by omega) hd; omega
      simp [this]
    simp [this]
  | succ start ih =>
    obtain ⟨k, rfl⟩ : ∃ k, lag = k + 1 := ⟨lag - 1, by omega⟩
    rw [List.range'_succ, List.countP_cons] at ih
    rw [List.range'_concat, List.countP_append]
    simp only [List.countP_cons, List.countP_nil, Nat.one_mul, Nat.zero_add] at ih ⊢
    have : (k + 1 ∣ start + 1 + k) ↔ (k + 1 ∣ start) := by
      rw [show start + 1 + k = start + (k + 1) from by omega]
      exact Nat.dvd_add_self_right
    simp only [this]
    exact ih

theorem count_blocks (lag : ℕ) (hlag : 0 < lag) (q : ℕ) : ∀ start, (List.range' start (q * lag)).countP (fun it => decide (lag ∣ it)) = q := by
  induction q with
  | zero => intro start; simp
  | succ q ih =>
    intro start
    rw [Nat.succ_mul, Nat.add_comm, ← List.range'_append_1, List.countP_append, count_multiples lag hlag, ih]
    omega

/-- **C109.** For all numbers of events, chains and every lag, whatever is drawn and with whatever number the iterations start, the file has the largest multiple of
the number of chains that is not larger than the number of events asked for. -/
theorem generated_events (s : Sampler) (start nEvents nChains lag : ℕ) (hc : 0 < nChains) (hlag : 0 < lag) (store : Bool) (draw : ℕ → ℕ → Draw)
    (hp : Possible s draw) :
    ∃ evs, generate s start nEvents nChains lag store draw = .ok evs ∧ nChains ∣ evs.length ∧ evs.length ≤ nEvents ∧ nEvents < evs.length + nChains := by
  obtain ⟨evs, e1, e2⟩ := runCalls_length s lag hlag store draw hp (calls start (nEvents / nChains * lag) nChains)
  rw [countP_calls, count_blocks lag hlag] at e2
  refine ⟨evs, ?_, ⟨_, by rw [e2, Nat.mul_comm]⟩, ?_, ?_⟩
  · unfold generate iterations
    rw [if_neg (by omega), Outcome.ok_bind, e1]
  · rw [e2]; exact Nat.div_mul_le_self _ _
  · rw [e2]
    have h1 := Nat.div_add_mod nEvents nChains
    have h2 := Nat.mod_lt nEvents hc
    rw [Nat.mul_comm] at h1
    omega

/-- **C109.** All events that were asked for are written exactly if their number is a multiple of the number of chains; fewer events than chains give an empty file. -/
theorem generated_all (s : Sampler) (start nEvents nChains lag : ℕ) (hc : 0 < nChains) (hlag : 0 < lag) (store : Bool) (draw : ℕ → ℕ → Draw)
    (hp : Possible s draw) (evs : List Stored) (h : generate s start nEvents nChains lag store draw = .ok evs) :
    (evs.length = nEvents ↔ nChains ∣ nEvents) ∧ (nEvents < nChains → evs = []) := by
  obtain ⟨evs', e1, e2, e3, e4⟩ := generated_events s start nEvents nChains lag hc hlag store draw hp
  rw [h] at e1
  cases e1
  obtain ⟨k, hk⟩ := e2
  refine ⟨⟨fun he => ⟨k, by rw [← he, hk]⟩, fun ⟨j, hj⟩ => ?_⟩, fun hlt => ?_⟩
  · rw [hj, hk] at e3 e4
    have h1 : k ≤ j := Nat.le_of_mul_le_mul_left e3 hc
    have h2 : j < k + 1 := by
      refine Nat.lt_of_mul_lt_mul_left (a := nChains) ?_
      rw [Nat.mul_add, Nat.mul_one]; exact e4
    rw [hk, hj, show k = j from by omega]
  · apply List.length_eq_zero_iff.1
    rw [hk] at e3 ⊢
    have : k = 0 := by
      by_contra h0
      have := Nat.le_mul_of_pos_right nChains (Nat.pos_of_ne_zero h0)
      omega
    rw [this, Nat.mul_zero]

/-- no chains: the program ends. -/
theorem generate_noChains (s : Sampler) (start nEvents lag : ℕ) (store : Bool) (draw : ℕ → ℕ → Draw) :
    generate s start nEvents 0 lag store draw = .terminate := rfl

/-- ten events of three chains: nine are written. -/
theorem ex_generated : ∃ (s : Sampler) (draw : ℕ → ℕ → Draw), Possible s draw ∧ ∃ evs, generate s 1 10 3 5 true draw = .ok evs ∧ evs.length = 9 := by
  have hp : Possible exSampler fun _ _ => ⟨some ⟨0, 0, 3, 5⟩, some 1, 3, 3, 0, exPoint⟩ :=
    ⟨by show 2 ≤ 3; omega, fun _ _ => ⟨⟨_, _, _, exPoint_of, exM_valid⟩, ⟨_, rfl⟩, _, rfl⟩⟩
  refine ⟨_, _, hp, ?_⟩
  obtain ⟨evs, e1, ⟨k, hk⟩, e3, e4⟩ := generated_events _ 1 10 3 5 (by omega) (by omega) true _ hp
  exact ⟨evs, e1, by omega⟩

end Rpwa.ISamp
