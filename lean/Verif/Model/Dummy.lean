import Verif.Model.TestModule

/-
Model of `test_module<T>::dummy`, `api/src/cmp/core/test_module.ipp` 8-98.
-/

namespace Cmp

/-- A test module that is used by dummies, and the dummies in the order in which they were made;
`none`: destroyed.  All of them belong to this module (`m_owning_test_module`); the rest of a dummy
is its value, an `int`. -/
structure Bench where
  owner : TestModule
  dummies : List (Option Int)

namespace Bench

variable {α : Type}

/-- Use the owner. -/
def onOwner (x : M TestModule α) : M Bench α := fun s =>
  ((x s.owner).1, { s with owner := (x s.owner).2 })

/-- Use a dummy.  It is undefined to use one that is not there or is destroyed. -/
def withDummy (i : Nat) (x : Int → M Bench α) : M Bench α := fun s =>
  match s.dummies[i]? with
  | some (some v) => x v s
  | _ => (.ub, s)

/-- `dummy::default_value`, `test_module.hpp` 60. -/
def defaultValue : Int := 0

/-- A new object. -/
def add (v : Int) : M Bench Unit := M.modify fun s => { s with dummies := s.dummies ++ [some v] }

/-- Change of the value of an object. -/
def put (i : Nat) (v : Option Int) : M Bench Unit :=
  M.modify fun s => { s with dummies := s.dummies.set i v }

/-- The constructor (`noexcept`), `test_module.ipp` 12-26. -/
def construct (v : Int) : M Bench Unit := M.noexcept do
  add v
  onOwner (TestModule.pushMessage .constructorCalled)

/-- The destructor, `test_module.ipp` 28-36. -/
def destroy (i : Nat) : M Bench Unit := withDummy i fun _ => do
  onOwner (TestModule.pushMessage .destructorCalled)
  put i none

/-- The copy constructor, `test_module.ipp` 40-52. -/
def copy (i : Nat) : M Bench Unit := withDummy i fun v => do
  add v
  onOwner (TestModule.pushMessage .copyConstructorCalled)

/-- The move constructor (`noexcept`), `test_module.ipp` 56-71. -/
def move (i : Nat) : M Bench Unit := M.noexcept <| withDummy i fun v => do
  add v
  onOwner (TestModule.pushMessage .moveConstructorCalled)
  put i (some defaultValue)

/-- `get_value` (`noexcept`), `test_module.ipp` 75-83. -/
def getValue (i : Nat) : M Bench Int := withDummy i fun v => pure v

/-- `set_value` (`noexcept`), `test_module.ipp` 85-95. -/
def setValue (i : Nat) (v : Int) : M Bench Unit := withDummy i fun _ => put i (some v)

end Bench

end Cmp
