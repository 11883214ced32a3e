import Verif.Props.EvtConvertMain
/-!
# Conversion of event files to text and back (C94): a concrete case -/
namespace Rpwa.EvtConvert.Ex

open Rpwa.Storage

/-- a simple way to write numbers. -/
def T : Text where
  pInt s := match s.toList with
    | 'm' :: r => some (-(r.length + 1))
    | l => some l.length
  pDbl s := some fun i => UInt8.ofNat (s.toList.getD i 'x').toNat
  fInt n := String.ofList (if 0 ≤ n then List.replicate n.toNat 'p' else List.replicate (-n).toNat 'm')
  fDbl d := String.ofList (List.ofFn fun i => Char.ofNat (d i).toNat)

theorem int_back (n : ℤ) : T.pInt (T.fInt n) = some n := by
  unfold T
  dsimp only
  rw [String.toList_ofList]
  by_cases h : 0 ≤ n
  · rw [if_pos h]
    cases hn : n.toNat with
    | zero => simp; omega
    | succ k =>
      rw [List.replicate_succ]
      simp
      omega
  · rw [if_neg h]
    cases hn : (-n).toNat with
    | zero => omega
    | succ k =>
      rw [List.replicate_succ]
      simp
      omega

theorem dbl_back (d : Dbl) : T.pDbl (T.fDbl d) = some d := by
  unfold T
  dsimp only
  rw [String.toList_ofList]
  congr 1
  funext i
  rw [List.getD_eq_getElem?_getD, List.getElem?_ofFn, dif_pos i.2]
  simp only [Option.getD_some]
  have h : (d i).toNat < 256 := (d i).toNat_lt
  have hc : (Char.ofNat (d i).toNat).toNat = (d i).toNat := by
    unfold Char.ofNat
    rw [dif_pos (Or.inl (by omega))]
    rfl
  rw [hc]
  simp

def vec (n : ℕ) : Vec3 := ⟨fun _ => UInt8.ofNat n, Dbl.zero, fun _ => 255⟩

def tree : Tree := ⟨[], [⟨[vec 1], [vec 2, vec 3, vec 4], []⟩, ⟨[vec 5], [vec 6, vec 7, vec 8], []⟩]⟩

noncomputable def em : EventMeta := { EventMeta.default with prodNames := ["pi-"], decayNames := ["pi-", "pi0", "pi-"], tree := some tree }

def P : PartData := ⟨fun _ => true, fun _ => 0, fun _ _ => Dbl.zero⟩

noncomputable def args : ConvArgs := ⟨"aux", .real, some fun _ => none⟩

/-- two events with three particles each are written and read back. -/
example (md5 : Hashor → String) : ∃ text m, treeToEvt T P em = .ok text ∧ evtToTree md5 T args text = .ok m ∧ m.decayNames = ["pi-", "pi0", "pi-"] ∧ m.tree = some tree := by
  have hw : ∀ n ∈ ["pi-", "pi0", "pi-"], Writable P n := by
    intro n hn
    refine ⟨rfl, ?_⟩
    revert n
    decide +kernel
  obtain ⟨text, m, h1, h2, h3, h4, h5, -⟩ := round_trip md5 T int_back P args (bounds := fun _ => none) rfl (em := em) (t := tree) rfl (by simp [tree]) (beam := "pi-") rfl (hw _ (by simp)) hw (by
    intro r hr
    have hb : ∀ v, ReadBack T v := fun v => ⟨dbl_back _, dbl_back _, dbl_back _⟩
    simp only [tree, List.mem_cons, List.not_mem_nil, or_false] at hr
    rcases hr with rfl | rfl <;> exact ⟨rfl, rfl, fun v _ => hb v⟩)
  exact ⟨text, m, h1, h2, h4, h5⟩

/-- the second event has its particles in another order. -/
example : Selected ["pi-", "pi0", "pi-"] (["pi0", "pi-", "pi-"].zip [1, 2, 3]) [2, 1, 3] := by
  refine ⟨rfl, fun n => ?_⟩
  by_cases h1 : n = "pi-"
  · subst h1; rfl
  · by_cases h2 : n = "pi0"
    · subst h2; rfl
    · simp [Ne.symm h1, Ne.symm h2]

end Rpwa.EvtConvert.Ex
