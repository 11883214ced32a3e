import Verif.Model.Basic
/-! `Outcome` is a lawful monad. -/
namespace Rpwa

instance : LawfulMonad Outcome := LawfulMonad.mk'
  (id_map := fun x => by cases x <;> rfl)
  (pure_bind := fun _ _ => rfl)
  (bind_assoc := fun x _ _ => by cases x <;> rfl)
  
end Rpwa
