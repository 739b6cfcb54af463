/-
How the declarations of a library are to be marked.
-/
import Verif.Model.Exports
import Verif.Spec.Cmake

namespace Cmp.Spec

open Cmp Cmp.Cmake

/-- How a target marks the declarations of the library: only those of a shared library are marked, by the
library itself as what it offers, and by what links with it as what is taken from it. -/
def markFor (marks : Headers.Marks) (library t : Target) : Option PpToken :=
  if library.kind = .sharedLibrary then
    if t.name = library.name then some (.text marks.exported)
    else if library.name ∈ t.links then some (.text marks.imported)
    else none
  else none

/-- What a declaration is marked with after the macros are replaced; `none` for nothing. -/
def markIn (u : TranslationUnit) : Option PpToken := u.macros.expand 4 (.name "CMP_LIBRARY_NAME")

/-- The names by which declarations are marked, which nothing else depends on. -/
def namesForMarks : List String := ["CMP_LIBRARY_NAME", "CMP_EXPORT", "CMP_NO_EXPORT", "CMP_EXPORT_H"]

end Cmp.Spec
