import Verif.Base.Outcome

/-
Model of the construction and destruction of the standard streams and their resources, which are
objects of static storage duration: `api/src/cmp/io/definitions.cpp`, `uio.cpp`,
`api/include/cmp/io/uio.hpp`, and the ends of `impl/unix_like/unix_like_uin.*`,
`unix_like_uout.*`, `impl/windows/windows_uin.*`, `windows_uout.*`.
-/

namespace Cmp

/-- The objects of the library. -/
inductive StdObject
  | uinResource
  | uoutResource
  | uerrResource
  | uin
  | uout
  | uerr
  deriving DecidableEq, Repr

/-- The streams a program uses. -/
inductive StdName
  | uin
  | uout
  | uerr
  deriving DecidableEq, Repr

/-- The objects that using a stream accesses: the stream, its resource, and for `uin` the resource it
is tied to (`input_resource.cpp` 26-28). -/
def StdName.touches : StdName → List StdObject
  | uin => [.uin, .uinResource, .uoutResource]
  | uout => [.uout, .uoutResource]
  | uerr => [.uerr, .uerrResource]

/-- An object of static storage duration of a program that uses the library: the streams its
constructor and its destructor use. -/
structure UserStatic where
  name : Nat
  onInit : List StdName
  onExit : List StdName
  deriving DecidableEq, Repr

/-- Objects of static storage duration. -/
inductive Static
  | lib (o : StdObject)
  | user (u : UserStatic)
  deriving DecidableEq, Repr

/-- How the library is used: `CMP_CONFIG_HEADER_ONLY`. -/
inductive LibraryMode
  | compiled
  | headerOnly
  deriving DecidableEq, Repr

/-- The order of the definitions: in the one translation unit `definitions.cpp` 13-27 (of
`unix_like_uin.cpp` 56, `unix_like_uout.cpp` 48-56, `uio.cpp` 8-10; on Windows `windows_uin.cpp` 65,
`windows_uout.cpp` 53-61), and in the headers (`unix_like_uin.hpp` 11 includes `unix_like_uout.hpp`,
58-66, before its own object, 76; `windows_uin.hpp` 11 and 81, `windows_uout.hpp` 58-66; `uio.hpp`
14-16). -/
def LibraryMode.objects : LibraryMode → List StdObject
  | compiled => [.uinResource, .uoutResource, .uerrResource, .uin, .uout, .uerr]
  | headerOnly => [.uoutResource, .uerrResource, .uinResource, .uin, .uout, .uerr]

/-- What the constructors access.  That of `uin_resource` converts `uout_resource` to a reference to
its base class (`unix_like_uin.cpp` 19, `windows_uin.cpp` 20), which is undefined before the
construction of `uout_resource` has begun; as compilers implement it nothing is accessed, so it counts
only if `strict`.  The streams' constructors store references. -/
def StdObject.onInit (strict : Bool) : StdObject → List StdObject
  | uinResource => if strict then [uoutResource] else []
  | _ => []

/-- What the destructors access: those of the output streams flush (`output_stream.ipp` 25-31). -/
def StdObject.onExit : StdObject → List StdObject
  | uout => [uoutResource]
  | uerr => [uerrResource]
  | _ => []

namespace Static

/-- What the constructor of an object accesses. -/
def onInit (strict : Bool) : Static → List StdObject
  | lib o => o.onInit strict
  | user u => u.onInit.flatMap StdName.touches

/-- What the destructor accesses. -/
def onExit : Static → List StdObject
  | lib o => o.onExit
  | user u => u.onExit.flatMap StdName.touches

/-- Construct objects in order, with those alive, the latest first: accessing one that is not
constructed is undefined. -/
def construct (strict : Bool) : List Static → List Static → Outcome (List Static)
  | [], alive => .ok alive
  | s :: rest, alive =>
    if ∀ o ∈ s.onInit strict, lib o ∈ alive then construct strict rest (s :: alive) else .ub

/-- Destroy objects in the reverse order of their construction. -/
def destroy : List Static → Outcome Unit
  | [] => .ok ()
  | s :: alive => if ∀ o ∈ s.onExit, lib o ∈ alive then destroy alive else .ub

/-- A program from before `main` to after it.  `before` and `after` are the objects of the program's
translation units, in the order of the linker's choice; the library's translation unit is between
them.  In the header-only case the library's objects are inline variables, defined in each of the
program's translation units before the objects that use them, and therefore constructed before all
of those. -/
def run (strict : Bool) (mode : LibraryMode) (before after : List UserStatic) : Outcome Unit := do
  let alive ← construct strict (match mode with
    | .compiled => before.map user ++ mode.objects.map lib ++ after.map user
    | .headerOnly => mode.objects.map lib ++ before.map user ++ after.map user) []
  destroy alive

end Static

end Cmp
