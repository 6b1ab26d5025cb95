/-!
# Import sections of Go files

The rule of the Go language about the imports of one file: a package is imported once, a qualified name needs
the import of its package, and an import that no name refers to is an error ("imported and not used").
-/

namespace Iota.Spec.GoFile

/-- A file as far as packages go: those it imports and those its declarations refer to. -/
structure File (P : Type) where
  imports : List P
  uses : List P

/-- The compiler has nothing to say about the imports of the file. -/
def Accepted {P : Type} (f : File P) : Prop :=
  f.imports.Nodup ∧ (∀ p ∈ f.uses, p ∈ f.imports) ∧ (∀ p ∈ f.imports, p ∈ f.uses)

end Iota.Spec.GoFile
